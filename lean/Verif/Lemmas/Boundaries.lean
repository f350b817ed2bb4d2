import Verif.Model.Boundaries
import Verif.Lemmas.Arr

set_option linter.unusedSectionVars false

namespace JaxCfd

variable {d : ℕ} {K : Type}

theorem Except.bind_ok {α β : Type} (a : α) (f : α → Except Err β) :
    ((Except.ok a : Except Err α) >>= f) = f a := rfl

theorem Except.bind_error {α β : Type} (e : Err) (f : α → Except Err β) :
    ((Except.error e : Except Err α) >>= f) = .error e := rfl

theorem Except.bind_eq_ok {α β : Type} {x : Except Err α} {f : α → Except Err β} {b : β} :
    (x >>= f) = .ok b ↔ ∃ a, x = .ok a ∧ f a = .ok b := by
  cases x with
  | error e => simp [Except.bind_error]
  | ok a => simp [Except.bind_ok]

theorem Except.pure_eq_ok {α : Type} (a : α) : (pure a : Except Err α) = .ok a := rfl

theorem Except.map_ok {α β : Type} (f : α → β) (a : α) :
    (f <$> (Except.ok a : Except Err α)) = .ok (f a) := rfl

theorem GridArray.ext' {u v : GridArray d K} (h1 : u.toNArr.shape = v.toNArr.shape)
    (h2 : u.toNArr.data = v.toNArr.data) (h3 : u.offset = v.offset) (h4 : u.grid = v.grid) : u = v := by
  obtain ⟨⟨_, _⟩, _, _⟩ := u
  obtain ⟨⟨_, _⟩, _, _⟩ := v
  simp only at h1 h2 h3 h4
  subst h1 h2 h3 h4
  rfl

theorem update_update_self {α : Type} (f : Fin d → α) (ax : Fin d) (b : α) (h : b = f ax) :
    Function.update f ax b = f := by
  subst h; exact Function.update_eq_self ax f

theorem Except.exists_of_map {α β : Type} {x : Except Err α} {f : α → β} {b : β}
    (h : x.map f = .ok b) : ∃ a, x = .ok a ∧ f a = b := by
  cases x with
  | error e => simp [Except.map] at h
  | ok a => exact ⟨a, rfl, by simpa [Except.map] using h⟩

namespace BC

/-- Trimming `w` cells from the lower side. -/
theorem trim_lower (u : GridArray d K) (w : ℕ) (ax : Fin d) (h : w ≤ u.shape ax) :
    trim u (-(w : ℤ)) ax = .ok ⟨⟨Function.update u.shape ax (u.shape ax - w),
      fun i => u.data (Function.update i ax (i ax + w))⟩,
      Function.update u.offset ax (u.offset ax + w), u.grid⟩ := by
  unfold trim
  rcases Nat.eq_zero_or_pos w with rfl | hw
  · simp only [Nat.cast_zero, neg_zero, lt_irrefl, if_false]
    rw [sliceInDim_ok _ _ _ _ (by simp) (by simp) (by simp)]
    simp [Except.bind_ok, Except.pure_eq_ok]
  · have : -(w : ℤ) < 0 := by omega
    simp only [this, if_true]
    rw [sliceInDim_ok _ _ _ _ (by simp) (by simp; omega) (by simp)]
    simp only [Except.bind_ok, Except.pure_eq_ok, neg_neg, sub_zero]
    congr 3
    · congr 2; omega

/-- Trimming `w` cells from the upper side. -/
theorem trim_upper (u : GridArray d K) (w : ℕ) (ax : Fin d) (h : w ≤ u.shape ax) :
    trim u (w : ℤ) ax = .ok ⟨⟨Function.update u.shape ax (u.shape ax - w), u.data⟩,
      u.offset, u.grid⟩ := by
  unfold trim
  have : ¬ (w : ℤ) < 0 := by omega
  simp only [this, if_false]
  rw [sliceInDim_ok _ _ _ _ (by simp) (by simp; omega) (by simp)]
  simp only [Except.bind_ok, Except.pure_eq_ok, sub_zero, add_zero, Int.cast_zero,
    Function.update_eq_self]
  congr 3
  · congr 1; omega

theorem trim_zero (u : GridArray d K) (ax : Fin d) : trim u 0 ax = .ok u := by
  have := trim_upper u 0 ax (by omega)
  simpa using this

variable [Field K] [HasNan K]

omit [Field K] [HasNan K] in
/-- No ghost cells to remove from a periodic variable that has the shape of the grid. -/
theorem trimPadding_periodic (bc : BC d K) (u : GridArray d K) (ax : Fin d) (side : TrimSide)
    (hper : bc.types ax = (.periodic, .periodic)) (hs : u.shape ax = u.grid.shape ax) :
    bc.trimPadding u ax side = .ok (u, (0, 0)) := by
  unfold trimPadding
  rw [if_pos (by rw [hs])]
  have h1 : bc.trimPaddingLower u ax side = .ok (u, 0) := by
    unfold trimPaddingLower
    split
    · rename_i h
      have hneg : max (-⌈-(u.offset ax)⌉) ((u.grid.shape ax : ℤ) - u.shape ax) = 0 := by
        rw [hs, sub_self, max_eq_right]
        have : (0 : ℤ) ≤ ⌈-(u.offset ax)⌉ := Int.ceil_nonneg (by linarith [h.1])
        omega
      simp only [hper, if_true, hneg, trim_zero, Except.bind_ok, Except.pure_eq_ok]
    · rfl
  have h2 : bc.positiveTrim u ax side = 0 := by
    unfold positiveTrim
    split
    · simp [hper, hs]
    · rfl
  simp [h1, h2, trimUpperIf, Except.bind_ok, Except.pure_eq_ok]

/-- Closed form of the periodic shift. -/
theorem shift_periodic (bc : BC d K) (u : GridArray d K) (k : ℤ) (ax : Fin d) (mode : Padding)
    (hper : bc.types ax = (.periodic, .periodic)) (hs : u.shape ax = u.grid.shape ax)
    (hpos : 0 < u.grid.shape ax) :
    bc.shift u k ax mode = .ok ⟨⟨u.shape, fun i => u.data (rollIdx u.shape ax k i)⟩,
      Function.update u.offset ax (u.offset ax + k), u.grid⟩ := by
  have hn : 0 < u.shape ax := by omega
  unfold shift pad1 padByType
  rcases lt_or_ge k 0 with hk | hk
  · obtain ⟨w, rfl⟩ : ∃ w : ℕ, k = -(w : ℤ) := ⟨(-k).toNat, by omega⟩
    simp only [makePadding, hk, if_true, hper]
    rw [trimPadding_periodic bc u ax _ hper hs]
    simp only [Except.bind_ok, neg_neg, add_zero]
    rw [jnpPad_ok _ _ _ _ (by simp) (by simp) (Or.inr hn)]
    simp only [Except.bind_ok, Except.pure_eq_ok]
    rw [trim_upper _ _ _ (by simp)]
    refine congrArg Except.ok (GridArray.ext' ?_ ?_ ?_ rfl)
    · simp
    · funext i
      simp [padData, padIdxData, wrapIdx, rollIdx, sub_eq_add_neg]
    · simp [sub_eq_add_neg]
  · obtain ⟨w, rfl⟩ : ∃ w : ℕ, k = (w : ℤ) := ⟨k.toNat, by omega⟩
    have hk' : ¬ (w : ℤ) < 0 := by omega
    simp only [makePadding, hk', if_false, hper]
    rw [trimPadding_periodic bc u ax _ hper hs]
    simp only [Except.bind_ok, zero_add, add_zero]
    rw [jnpPad_ok _ _ _ _ (by simp) (by simp) (Or.inr hn)]
    simp only [Except.bind_ok, Except.pure_eq_ok]
    rw [trim_lower _ _ _ (by simp)]
    refine congrArg Except.ok (GridArray.ext' ?_ ?_ ?_ rfl)
    · simp
    · funext i
      simp [padData, padIdxData, wrapIdx, rollIdx]
    · simp

theorem shift_periodic_eq {bc : BC d K} {u r : GridArray d K} {k : ℤ} {ax : Fin d} {mode : Padding}
    (h : bc.shift u k ax mode = .ok r)
    (hper : bc.types ax = (.periodic, .periodic)) (hs : u.shape ax = u.grid.shape ax)
    (hpos : 0 < u.grid.shape ax) :
    r = ⟨⟨u.shape, fun i => u.data (rollIdx u.shape ax k i)⟩,
      Function.update u.offset ax (u.offset ax + k), u.grid⟩ := by
  rw [shift_periodic bc u k ax mode hper hs hpos] at h
  injection h with h
  exact h.symm

omit [Field K] [HasNan K] in
/-- What a successful `_trim_padding` does: it removes `tr.1` cells below and `tr.2` cells above. -/
theorem trim_spec {u v : GridArray d K} {w : ℤ} {ax : Fin d} (h : trim u w ax = .ok v)
    (hw : w ≤ u.shape ax) :
    -w ≤ u.shape ax ∧ v.grid = u.grid ∧
    v.offset = Function.update u.offset ax (u.offset ax + ((max 0 (-w) : ℤ) : ℚ)) ∧
    v.shape = Function.update u.shape ax (u.shape ax - w.natAbs) ∧
    v.data = fun i => u.data (Function.update i ax (i ax + max 0 (-w))) := by
  rcases lt_or_ge w 0 with hk | hk
  · obtain ⟨n, rfl⟩ : ∃ n : ℕ, w = -(n : ℤ) := ⟨(-w).toNat, by omega⟩
    have hn : n ≤ u.shape ax := by
      by_contra hc
      unfold trim at h
      simp only [hk, if_true] at h
      unfold sliceInDim at h
      simp only [neg_neg, sub_zero] at h
      rw [if_neg (by omega)] at h
      simp only [Except.bind_error] at h
      cases h
    rw [trim_lower _ _ _ hn] at h
    injection h with h
    subst h
    have : max 0 (-(-(n : ℤ))) = n := by omega
    refine ⟨by omega, rfl, ?_, ?_, ?_⟩
    · simp only [this]; norm_cast
    · simp
    · simp only [this]
  · obtain ⟨n, rfl⟩ : ∃ n : ℕ, w = (n : ℤ) := ⟨w.toNat, by omega⟩
    rw [trim_upper _ _ _ (by omega)] at h
    injection h with h
    subst h
    have : max 0 (-(n : ℤ)) = 0 := by omega
    refine ⟨by omega, rfl, ?_, ?_, ?_⟩
    · simp only [this]; simp
    · simp
    · simp only [this, add_zero, update_get]

omit [Field K] [HasNan K] in
theorem trimPaddingLower_spec {bc : BC d K} {u v : GridArray d K} {ax : Fin d} {side : TrimSide}
    {neg : ℤ} (hge : u.shape ax ≥ u.grid.shape ax)
    (h : bc.trimPaddingLower u ax side = .ok (v, neg)) :
    neg ≤ 0 ∧ v.grid = u.grid ∧
    v.offset = Function.update u.offset ax (u.offset ax + ((-neg : ℤ) : ℚ)) ∧
    (v.shape ax : ℤ) - neg = u.shape ax ∧
    v.shape = Function.update u.shape ax (v.shape ax) ∧
    (v.data = fun i => u.data (Function.update i ax (i ax - neg))) ∧
    (u.offset ax ≤ u.grid.shape ax → 0 < u.grid.shape ax → v.offset ax ≤ u.grid.shape ax) := by
  unfold trimPaddingLower at h
  split at h
  · rename_i hc
    dsimp only at h
    set o := u.offset ax with ho
    have hceil : (0 : ℤ) ≤ ⌈-o⌉ := Int.ceil_nonneg (by linarith [hc.1])
    have hceil' : (⌈-o⌉ : ℚ) < -o + 1 := Int.ceil_lt_add_one _
    generalize hneg : (if (bc.types ax).1 = BCType.periodic then
        max (-⌈-o⌉) ((u.grid.shape ax : ℤ) - u.shape ax)
      else if Int.fract o = 0 then -⌈-o⌉ - 1 else -⌈-o⌉) = n at h
    rw [Except.bind_eq_ok] at h
    obtain ⟨v', hv, h⟩ := h
    injection h with h
    injection h with h1 h2
    subst h1 h2
    have hfr : Int.fract o = 0 → (⌈-o⌉ : ℚ) = -o := by
      intro hf
      obtain ⟨z, hz⟩ := Int.fract_eq_zero_iff.1 hf
      rw [← hz, ← Int.cast_neg, Int.ceil_intCast]
    have hle : n ≤ 0 := by
      rw [← hneg]
      split
      · omega
      · split <;> omega
    · obtain ⟨a1, a2, a3, a4, a5⟩ := trim_spec hv (by omega)
      have hm : max 0 (-n) = -n := by omega
      rw [hm] at a3 a5
      have a4' : v'.shape ax = u.shape ax - n.natAbs := by rw [a4]; simp
      refine ⟨hle, a2, a3, by omega, ?_, ?_, ?_⟩
      · rw [a4]; simp
      · rw [a5]; rfl
      · intro h1 h2
        rw [a3]
        simp only [Function.update_self]
        have h2' : (1 : ℚ) ≤ u.grid.shape ax := by exact_mod_cast h2
        rw [← hneg]
        split
        · have : (-⌈-o⌉ : ℤ) ≤ max (-⌈-o⌉) ((u.grid.shape ax : ℤ) - u.shape ax) := le_max_left _ _
          have hq : ((-⌈-o⌉ : ℤ) : ℚ) ≤ ((max (-⌈-o⌉) ((u.grid.shape ax : ℤ) - u.shape ax) : ℤ) : ℚ) := by
            exact_mod_cast this
          push_cast at hq ⊢
          linarith
        · split
          · rename_i hf
            have := hfr hf
            push_cast
            linarith
          · push_cast
            linarith
  · injection h with h
    injection h with h1 h2
    subst h1 h2
    refine ⟨le_refl _, rfl, ?_, by omega, ?_, ?_, ?_⟩
    · simp
    · simp
    · simp
    · intro h1 _; exact h1

omit [Field K] [HasNan K] in
theorem trimPadding_spec {bc : BC d K} {u v : GridArray d K} {ax : Fin d} {side : TrimSide}
    {tr : ℤ × ℤ} (h : bc.trimPadding u ax side = .ok (v, tr))
    (ho : u.offset ax ≤ u.grid.shape ax) (hN : 0 < u.grid.shape ax) :
    0 ≤ tr.1 ∧ 0 ≤ tr.2 ∧ v.grid = u.grid ∧
    v.offset = Function.update u.offset ax (u.offset ax + (tr.1 : ℚ)) ∧
    (v.shape ax : ℤ) + tr.1 + tr.2 = u.shape ax ∧
    v.shape = Function.update u.shape ax (v.shape ax) ∧
    (v.data = fun i => u.data (Function.update i ax (i ax + tr.1))) := by
  unfold trimPadding at h
  split at h
  · rename_i hge
    rw [Except.bind_eq_ok] at h
    obtain ⟨⟨v1, neg⟩, h1, h⟩ := h
    obtain ⟨b1, b2, b3, b4, b5, b6, b7⟩ := trimPaddingLower_spec hge h1
    have b7 := b7 ho hN
    dsimp only at h
    set pt := bc.positiveTrim v1 ax side with hpt
    have hpt' : pt ≤ v1.shape ax := by
      rw [hpt]
      unfold positiveTrim
      split
      · split
        · have : 0 ≤ v1.shape ax := Nat.zero_le _
          omega
        · dsimp only
          split
          · have key : ((v1.shape ax : ℚ) + v1.offset ax - 1 - v1.grid.shape ax) ≤
                (((v1.shape ax : ℤ) - 1 : ℤ) : ℚ) := by
              rw [b2]; push_cast; linarith
            have := Int.ceil_le.2 key
            split <;> omega
          · omega
      · omega
    rw [Except.bind_eq_ok] at h
    obtain ⟨v2, h2, h⟩ := h
    injection h with h
    injection h with e1 e2
    subst e1 e2
    unfold trimUpperIf at h2
    split at h2
    · rename_i hp
      obtain ⟨a1, a2, a3, a4, a5⟩ := trim_spec h2 hpt'
      have hm : max 0 (-pt) = 0 := by omega
      rw [hm] at a3 a5
      have a4' : v2.shape ax = v1.shape ax - pt.natAbs := by rw [a4]; simp
      refine ⟨by simp; omega, by simp; omega, by rw [a2, b2], ?_, by simp; omega, ?_, ?_⟩
      · rw [a3]; simp [b3]
      · rw [a4, b5]; simp
      · rw [a5, b6]; simp [sub_eq_add_neg]
    · rename_i hp
      injection h2 with h2
      subst h2
      have hp0 : pt = 0 := by
        have : 0 ≤ pt := by
          rw [hpt]
          unfold positiveTrim
          split
          · split
            · omega
            · dsimp only
              split
              · rename_i hh
                have : (0 : ℤ) ≤ ⌈(v1.shape ax : ℚ) + v1.offset ax - 1 - v1.grid.shape ax⌉ :=
                  Int.ceil_nonneg (by linarith)
                split <;> omega
              · omega
          · omega
        omega
      refine ⟨by simp; omega, by simp; omega, b2, b3, by simp; omega, b5, ?_⟩
      rw [b6]; simp [sub_eq_add_neg]
  · injection h with h
    injection h with h1 h2
    subst h1 h2
    refine ⟨le_refl _, le_refl _, rfl, ?_, by simp, ?_, ?_⟩ <;> simp

/-- Every branch of `_pad` yields the padded shape and copies the entries that were not trimmed. -/
theorem padDirichletCenter_spec {bc : BC d K} {x y : NArr d K} {w : ℤ × ℤ} {ax : Fin d}
    {mode : Padding} (h : bc.padDirichletCenter x w ax mode = .ok y) :
    0 ≤ w.1 ∧ 0 ≤ w.2 ∧
      y.shape = Function.update x.shape ax (x.shape ax + w.1.toNat + w.2.toNat) ∧
      ∀ i, w.1 ≤ i ax → i ax < w.1 + x.shape ax →
        y.data i = x.data (Function.update i ax (i ax - w.1)) := by
  unfold padDirichletCenter at h
  dsimp only at h
  split at h
  · simp only [Except.bind_eq_ok] at h
    obtain ⟨a, ha, b, hb, h⟩ := h
    injection h with h
    subst h
    obtain ⟨a1, a2, a3, a4⟩ := jnpPad_shape ha
    obtain ⟨b1, b2, b3, b4⟩ := jnpPad_shape hb
    refine ⟨a1, a2, a3, fun i h0 h1 => ?_⟩
    simp only [NArr.map2, a4, b4]
    rw [padData_interior _ _ _ _ _ h0 h1, padData_interior _ _ _ _ _ h0 h1]; ring
  · simp only [Except.bind_eq_ok] at h
    obtain ⟨a, ha, b, hb, h⟩ := h
    injection h with h
    subst h
    obtain ⟨a1, a2, a3, a4⟩ := jnpPad_shape ha
    obtain ⟨b1, b2, b3, b4⟩ := jnpPad_shape hb
    refine ⟨a1, a2, a3, fun i h0 h1 => ?_⟩
    simp only [NArr.map2, a4, b4]
    rw [padData_interior _ _ _ _ _ h0 h1, padData_interior _ _ _ _ _ h0 h1]; ring
  · cases h

theorem padNeumann_spec {bc : BC d K} {x y : NArr d K} {w : ℤ × ℤ} {width : ℤ} {ax : Fin d}
    {step : K} {mode : Padding} (h : bc.padNeumann x w width ax step mode = .ok y) :
    0 ≤ w.1 ∧ 0 ≤ w.2 ∧
      y.shape = Function.update x.shape ax (x.shape ax + w.1.toNat + w.2.toNat) ∧
      ∀ i, w.1 ≤ i ax → i ax < w.1 + x.shape ax →
        y.data i = x.data (Function.update i ax (i ax - w.1)) := by
  unfold padNeumann at h
  dsimp only at h
  simp only [Except.bind_eq_ok] at h
  obtain ⟨m, hm, a, ha, z, hz, c, hc, h⟩ := h
  injection h with h
  subst h
  obtain ⟨a1, a2, a3, a4⟩ := jnpPad_shape ha
  obtain ⟨b1, b2, b3, b4⟩ := jnpPad_shape hz
  obtain ⟨c1, c2, c3, c4⟩ := jnpPad_shape hc
  refine ⟨a1, a2, a3, fun i h0 h1 => ?_⟩
  simp only [NArr.map2, a4, b4, c4]
  rw [padData_interior _ _ _ _ _ h0 h1, padData_interior _ _ _ _ _ h0 h1,
    padData_interior _ _ _ _ _ h0 h1]; ring

theorem padDirichletEdge_spec {bc : BC d K} {x y : NArr d K} {w : ℤ × ℤ} {ax : Fin d}
    {mode : Padding} (hw1 : 0 ≤ w.1) (hw2 : 0 ≤ w.2)
    (h : bc.padDirichletEdge x w ax mode = .ok y) :
      y.shape = Function.update x.shape ax (x.shape ax + w.1.toNat + w.2.toNat) ∧
      ∀ i, w.1 ≤ i ax → i ax < w.1 + x.shape ax →
        y.data i = x.data (Function.update i ax (i ax - w.1)) := by
  unfold padDirichletEdge at h
  dsimp only at h
  split at h
  · obtain ⟨a1, a2, a3, a4⟩ := jnpPad_shape h
    refine ⟨a3, fun i h0 h1 => ?_⟩
    rw [a4, padData_interior _ _ _ _ _ h0 h1]
  · split at h
    · split at h
      · split at h
        · cases h
        · simp only [Except.bind_eq_ok] at h
          obtain ⟨e, he, a, ha, b, hb, h⟩ := h
          injection h with h
          subst h
          obtain ⟨a1, a2, a3, a4⟩ := jnpPad_shape ha
          obtain ⟨b1, b2, b3, b4⟩ := jnpPad_shape hb
          obtain ⟨e1, e2, e3, e4⟩ := jnpPad_shape he
          refine ⟨a3, fun i h0 h1 => ?_⟩
          simp only [NArr.map2, a4, b4]
          have hes : (e.shape ax : ℤ) = x.shape ax + (if w.1 > 0 then 1 else 0) +
              (if w.2 > 0 then 1 else 0) := by
            rw [e3]; simp only [Function.update_self]
            split <;> split <;> simp
          rw [padData_interior _ _ _ _ _ h0 h1]
          rw [padData_interior e]
          rotate_left
          · split <;> omega
          · rw [hes]; split <;> split <;> omega
          rw [e4]
          rw [padData_interior]
          rotate_left
          · simp only [Function.update_self]; split <;> omega
          · simp only [Function.update_self]; split <;> omega
          simp only [Function.update_self, Function.update_idem]
          have : i ax - (if w.1 > 0 then w.1 - 1 else 0) - (if w.1 > 0 then 1 else 0) = i ax - w.1 := by
            split <;> omega
          rw [this]; ring
      · obtain ⟨a1, a2, a3, a4⟩ := jnpPad_shape h
        refine ⟨a3, fun i h0 h1 => ?_⟩
        rw [a4, padData_interior _ _ _ _ _ h0 h1]
      · cases h
    · rename_i hh hh2
      exfalso; omega

/-- What a successful `_pad` does to shape, offset, grid and to the entries it does not recompute. -/
theorem pad1_spec {bc : BC d K} {u r : GridArray d K} {width : ℤ} {ax : Fin d} {mode : Padding}
    (h : bc.pad1 u width ax mode = .ok r)
    (ho : u.offset ax ≤ u.grid.shape ax) (hN : 0 < u.grid.shape ax) :
    ∃ v tr, bc.trimPadding u ax (needTrimming (bc.makePadding width ax).2 width) = .ok (v, tr) ∧
    0 ≤ tr.1 ∧ 0 ≤ tr.2 ∧
    r.grid = u.grid ∧
    r.offset = Function.update u.offset ax (u.offset ax - ((max 0 (-width) : ℤ) : ℚ)) ∧
    r.shape = Function.update u.shape ax (u.shape ax + width.natAbs) ∧
    ∀ i, max 0 (-width) + tr.1 ≤ i ax → i ax < max 0 (-width) + u.shape ax - tr.2 →
      r.data i = u.data (Function.update i ax (i ax - max 0 (-width))) := by
  unfold pad1 at h
  dsimp only at h
  rw [Except.bind_eq_ok] at h
  obtain ⟨⟨v, tr⟩, hv, h⟩ := h
  dsimp only at h
  obtain ⟨t1, t2, t3, t4, t5, t6, t7⟩ := trimPadding_spec hv ho hN
  rw [Except.bind_eq_ok] at h
  obtain ⟨y, hy, h⟩ := h
  injection h with h
  subst h
  refine ⟨v, tr, hv, t1, t2, rfl, ?_⟩
  set p := (bc.makePadding width ax).1 with hp
  have hp1 : p.1 = max 0 (-width) ∧ p.2 = max 0 width := by
    rw [hp]; unfold makePadding
    split <;> simp <;> omega
  have hw1 : 0 ≤ p.1 + tr.1 := by omega
  have hw2 : 0 ≤ p.2 + tr.2 := by omega
  have key : y.shape = Function.update v.shape ax
        (v.shape ax + (p.1 + tr.1).toNat + (p.2 + tr.2).toNat) ∧
      ∀ i, (p.1 + tr.1) ≤ i ax → i ax < (p.1 + tr.1) + v.shape ax →
        y.data i = v.data (Function.update i ax (i ax - (p.1 + tr.1))) := by
    unfold padByType at hy
    split at hy
    · obtain ⟨a1, a2, a3, a4⟩ := jnpPad_shape hy
      refine ⟨a3, fun i h0 h1 => ?_⟩
      rw [a4, padData_interior _ _ _ _ _ h0 h1]
    · split at hy
      · exact (padDirichletCenter_spec hy).2.2
      · split at hy
        · exact padDirichletEdge_spec hw1 hw2 hy
        · cases hy
    · split at hy
      · exact (padNeumann_spec hy).2.2
      · cases hy
    · cases hy
  refine ⟨?_, ?_, ?_⟩
  · simp only [hp1.1]
  · rw [key.1, t6]
    simp only [Function.update_self, Function.update_idem]
    congr 1
    omega
  · intro i h0 h1
    simp only
    rw [key.2 i (by omega) (by omega), t7]
    simp only [Function.update_self, Function.update_idem]
    congr 2
    omega

/-- A successful shift moves the offset and keeps the shape. -/
theorem shift_spec {bc : BC d K} {u r : GridArray d K} {k : ℤ} {ax : Fin d} {mode : Padding}
    (h : bc.shift u k ax mode = .ok r)
    (ho : u.offset ax ≤ u.grid.shape ax) (hN : 0 < u.grid.shape ax) :
    r.grid = u.grid ∧ r.shape = u.shape ∧
    r.offset = Function.update u.offset ax (u.offset ax + k) := by
  unfold shift at h
  rw [Except.bind_eq_ok] at h
  obtain ⟨p, hp, h⟩ := h
  obtain ⟨v, tr, -, -, -, p1, p2, p3, -⟩ := pad1_spec hp ho hN
  have hps : p.shape ax = u.shape ax + k.natAbs := by rw [p3]; simp
  obtain ⟨a1, a2, a3, a4, a5⟩ := trim_spec h (by omega)
  refine ⟨by rw [a2, p1], ?_, ?_⟩
  · rw [a4, hps, p3]
    simp
  · rw [a3, p2]
    simp only [Function.update_self, Function.update_idem, neg_neg]
    congr 1
    have : (k : ℤ) = max 0 k - max 0 (-k) := by omega
    have hq : (k : ℚ) = ((max 0 k : ℤ) : ℚ) - ((max 0 (-k) : ℤ) : ℚ) := by exact_mod_cast this
    linarith

omit [Field K] [HasNan K] in
theorem trimPadding_left_none (bc : BC d K) (u : GridArray d K) (ax : Fin d)
    (h : 0 < u.offset ax) : bc.trimPadding u ax .left = .ok (u, (0, 0)) := by
  have h1 : bc.trimPaddingLower u ax .left = .ok (u, 0) := by
    unfold trimPaddingLower
    rw [if_neg (by intro hh; linarith [hh.1])]
  unfold trimPadding
  rw [h1]
  have : bc.positiveTrim u ax .left = 0 := by simp [positiveTrim]
  simp [Except.bind_ok, Except.pure_eq_ok, this, trimUpperIf]

omit [Field K] [HasNan K] in
theorem trimPadding_right_none (bc : BC d K) (u : GridArray d K) (ax : Fin d)
    (ht : (bc.types ax).2 ≠ .periodic)
    (h : (u.shape ax : ℚ) + u.offset ax - 1 < u.grid.shape ax) :
    bc.trimPadding u ax .right = .ok (u, (0, 0)) := by
  have h1 : bc.trimPaddingLower u ax .right = .ok (u, 0) := by
    unfold trimPaddingLower
    rw [if_neg (by rintro ⟨-, hh⟩; simp at hh)]
  unfold trimPadding
  rw [h1]
  have : bc.positiveTrim u ax .right = 0 := by
    unfold positiveTrim
    rw [if_pos (by simp), if_neg ht]
    dsimp only
    rw [if_neg (by linarith)]
  simp [Except.bind_ok, Except.pure_eq_ok, this, trimUpperIf]

/-- `_pad` on the lower side of an array without lower ghost cells. -/
theorem pad1_lower (bc : BC d K) (u : GridArray d K) (ax : Fin d) (w : ℕ) (mode : Padding)
    (hw : 0 < w) (ht : (bc.types ax).1 ≠ .periodic) (ho : 0 < u.offset ax) :
    bc.pad1 u (-(w : ℤ)) ax mode =
      (bc.padByType u (bc.types ax).1 (w, 0) (-w) ax mode).map fun data =>
        ⟨data, Function.update u.offset ax (u.offset ax - w), u.grid⟩ := by
  have hneg : -(w : ℤ) < 0 := by omega
  have hnn : ¬ -(w : ℤ) ≥ 0 := by omega
  unfold pad1
  simp only [makePadding, hneg, if_true, needTrimming, ht, if_false, hnn]
  rw [trimPadding_left_none bc u ax ho]
  simp only [Except.bind_ok, neg_neg, add_zero]
  cases bc.padByType u (bc.types ax).1 (w, 0) (-w) ax mode with
  | error e => rfl
  | ok v => simp [Except.bind_ok, Except.pure_eq_ok, Except.map]

/-- `_pad` on the upper side of an array without upper ghost cells. -/
theorem pad1_upper (bc : BC d K) (u : GridArray d K) (ax : Fin d) (w : ℕ) (mode : Padding)
    (ht : (bc.types ax).2 ≠ .periodic)
    (ho : (u.shape ax : ℚ) + u.offset ax - 1 < u.grid.shape ax) :
    bc.pad1 u (w : ℤ) ax mode =
      (bc.padByType u (bc.types ax).2 (0, w) w ax mode).map fun data => ⟨data, u.offset, u.grid⟩ := by
  have hneg : ¬ (w : ℤ) < 0 := by omega
  have hnn : (w : ℤ) ≥ 0 := by omega
  unfold pad1
  simp only [makePadding, hneg, if_false, needTrimming, ht, if_true, hnn]
  rw [trimPadding_right_none bc u ax ht ho]
  simp only [Except.bind_ok, add_zero, Int.cast_zero, sub_zero, Function.update_eq_self]
  cases bc.padByType u (bc.types ax).2 (0, w) w ax mode with
  | error e => rfl
  | ok v => simp [Except.bind_ok, Except.pure_eq_ok, Except.map]

theorem symIdx_neg (n : ℕ) (j : ℤ) (h0 : j < 0) (h1 : -(n : ℤ) ≤ j) : symIdx n j = -1 - j := by
  unfold symIdx
  have : j % (2 * (n : ℤ)) = j + 2 * n := by
    rw [← Int.add_mul_emod_self_left j (2 * (n : ℤ)) 1, mul_one]
    exact Int.emod_eq_of_lt (by omega) (by omega)
  rw [this]
  split <;> omega

theorem symIdx_up (n : ℕ) (j : ℤ) (h0 : (n : ℤ) ≤ j) (h1 : j < 2 * n) :
    symIdx n j = 2 * n - 1 - j := by
  unfold symIdx
  rw [Int.emod_eq_of_lt (by omega) (by omega)]
  split <;> omega

theorem reflIdx_neg (n : ℕ) (j : ℤ) (h0 : j ≤ 0) (h1 : -(n : ℤ) < j) : reflIdx n j = - j := by
  unfold reflIdx
  split
  · omega
  · rcases eq_or_lt_of_le h0 with rfl | h0
    · simp; omega
    · rcases eq_or_ne j (-((n : ℤ) - 1)) with hj | hj
      · have : j % (2 * ((n : ℤ) - 1)) = n - 1 := by
          rw [← Int.add_mul_emod_self_left j (2 * ((n : ℤ) - 1)) 1, mul_one]
          rw [Int.emod_eq_of_lt (by omega) (by omega)]; omega
        rw [this, if_pos (by omega)]; omega
      · have : j % (2 * ((n : ℤ) - 1)) = j + 2 * (n - 1) := by
          rw [← Int.add_mul_emod_self_left j (2 * ((n : ℤ) - 1)) 1, mul_one]
          exact Int.emod_eq_of_lt (by omega) (by omega)
        rw [this, if_neg (by omega)]; omega

theorem reflIdx_up (n : ℕ) (j : ℤ) (h0 : (n : ℤ) - 1 ≤ j) (h1 : j < 2 * n - 1) (hn : 0 < n) :
    reflIdx n j = 2 * (n - 1) - j := by
  unfold reflIdx
  split
  · omega
  · rcases eq_or_ne j (2 * ((n : ℤ) - 1)) with hj | hj
    · rw [hj]; simp; omega
    · rw [Int.emod_eq_of_lt (by omega) (by omega)]
      split <;> omega

end BC
end JaxCfd
