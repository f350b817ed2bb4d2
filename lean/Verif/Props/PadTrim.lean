import Verif.Lemmas.PadTrim
import Verif.Props.Fixtures

/-!
# Property theorems: sizes of padded arrays, pad/trim round trips (C13)
-/

namespace JaxCfd

variable {d : ℕ} {K : Type} [Field K] [HasNan K]

/-- **C13** Whatever the boundary types and mode, a successful `pad(u, w, axis)` with an integer width makes
the axis `|w|` longer, lowers the offset by the number of cells added below and keeps the grid. -/
theorem C13_pad_int_shape (bc : BC d K) (u r : GridArray d K) (w : ℤ) (ax : Fin d) (mode : Padding)
    (hN : 0 < u.grid.shape ax) (ho : u.offset ax ≤ u.grid.shape ax)
    (h : bc.pad u (.one w) ax mode = .ok r) :
    r.grid = u.grid ∧ (∀ a, r.shape a = if a = ax then u.shape a + w.natAbs else u.shape a) ∧
      (∀ a, r.offset a = if a = ax then u.offset a - ((max 0 (-w) : ℤ) : ℚ) else u.offset a) := by
  rw [BC.pad_one _ _ _ _ _ (BC.pad_ok_aligned h)] at h
  obtain ⟨-, -, -, -, -, a1, a2, a3, -⟩ := BC.pad1_spec h ho hN
  refine ⟨a1, fun a => ?_, fun a => ?_⟩
  · rw [a3]; by_cases e : a = ax
    · subst e; simp
    · simp [e]
  · rw [a2]; by_cases e : a = ax
    · subst e; simp
    · simp [e]

/-- **C13** The same for `pad(u, (lo, hi), axis)`. -/
theorem C13_pad_pair_shape (bc : BC d K) (u r : GridArray d K) (lo hi : ℕ) (ax : Fin d) (mode : Padding)
    (hN : 0 < u.grid.shape ax) (ho : u.offset ax ≤ u.grid.shape ax)
    (h : bc.pad u (.pair lo hi) ax mode = .ok r) :
    r.grid = u.grid ∧ (∀ a, r.shape a = if a = ax then u.shape a + lo + hi else u.shape a) ∧
      (∀ a, r.offset a = if a = ax then u.offset a - lo else u.offset a) := by
  obtain ⟨a1, a2, a3⟩ := BC.pad_pair_spec h ho hN
  refine ⟨a1, fun a => ?_, fun a => ?_⟩
  · rw [a3]; by_cases e : a = ax
    · subst e; simp
    · simp [e]
  · rw [a2]; by_cases e : a = ax
    · subst e; simp
    · simp [e]

/-- **C13** `pad_all(u, widths)` pads every axis by its own pair of widths. -/
theorem C13_pad_all_shape (bc : BC d K) (u r : GridArray d K) (lo hi : Fin d → ℕ) (mode : Padding)
    (hN : ∀ a, 0 < u.grid.shape a) (ho : ∀ a, u.offset a ≤ u.grid.shape a)
    (h : bc.padAll u (fun a => ((lo a : ℤ), (hi a : ℤ))) mode = .ok r) :
    r.grid = u.grid ∧ (∀ a, r.shape a = u.shape a + lo a + hi a) ∧
      (∀ a, r.offset a = u.offset a - lo a) := by
  have key : ∀ (l : List (Fin d)), l.Nodup → ∀ u : GridArray d K, (∀ a, 0 < u.grid.shape a) →
      (∀ a, u.offset a ≤ u.grid.shape a) →
      l.foldlM (fun u a => bc.pad u (.pair (lo a : ℤ) (hi a : ℤ)) a mode) u = .ok r →
      r.grid = u.grid ∧ (∀ a, r.shape a = if a ∈ l then u.shape a + lo a + hi a else u.shape a) ∧
      (∀ a, r.offset a = if a ∈ l then u.offset a - lo a else u.offset a) := by
    intro l
    induction l with
    | nil =>
      intro _ u _ _ h
      simp only [List.foldlM_nil] at h
      injection h with h
      subst h
      simp
    | cons b l ih =>
      intro hnd u hN ho h
      rw [List.nodup_cons] at hnd
      rw [List.foldlM_cons, Except.bind_eq_ok] at h
      obtain ⟨v, hv, h⟩ := h
      obtain ⟨a1, a2, a3⟩ := BC.pad_pair_spec hv (ho b) (hN b)
      obtain ⟨c1, c2, c3⟩ := ih hnd.2 v (by rw [a1]; exact hN) (by
        intro a
        rw [a1, a2]
        by_cases e : a = b
        · subst e
          simp only [Function.update_self]
          have := ho a
          linarith [(Nat.cast_nonneg (lo a) : (0 : ℚ) ≤ lo a)]
        · simp [e, ho a]) h
      refine ⟨by rw [c1, a1], fun a => ?_, fun a => ?_⟩
      · rw [c2, a3]
        by_cases e : a = b
        · subst e; simp [hnd.1]
        · simp [e]
      · rw [c3, a2]
        by_cases e : a = b
        · subst e; simp [hnd.1]
        · simp [e]
  obtain ⟨h1, h2, h3⟩ := key _ (List.nodup_finRange d) u hN ho h
  exact ⟨h1, by simpa using h2, by simpa using h3⟩

/-- **C13** Padding is undone by trimming: for an array without ghost or wall cells (all its points lie
strictly inside the domain), under any boundary types and mode, `trim(pad(u, w, axis), w, axis) = u`. -/
theorem C13_trim_pad_interior (bc : BC d K) (u r : GridArray d K) (w : ℤ) (ax : Fin d) (mode : Padding)
    (hN : 0 < u.grid.shape ax)
    (hnp : (bc.types ax).1 ≠ .periodic ∧ (bc.types ax).2 ≠ .periodic)
    (hlo : 0 < u.offset ax) (hhi : u.offset ax + u.shape ax - 1 < u.grid.shape ax)
    (hne : 0 < u.shape ax)
    (h : bc.pad u (.one w) ax mode = .ok r) :
    ∃ v, BC.trim r w ax = .ok v ∧ v.Eqv u := by
  have hne' : (1 : ℚ) ≤ u.shape ax := by exact_mod_cast hne
  have ho : u.offset ax ≤ u.grid.shape ax := by linarith
  rw [BC.pad_one _ _ _ _ _ (BC.pad_ok_aligned h)] at h
  obtain ⟨v, tr, ht, t1, t2, a1, a2, a3, a4⟩ := BC.pad1_spec h ho hN
  have htr : tr = (0, 0) := by
    rcases lt_or_ge w 0 with hw | hw
    · have : BC.needTrimming (bc.makePadding w ax).2 w = .left := by
        simp [BC.needTrimming, BC.makePadding, hw, hnp.1]
      rw [this, BC.trimPadding_left_none bc u ax hlo] at ht
      injection ht with ht
      injection ht with _ ht
      exact ht.symm
    · have : BC.needTrimming (bc.makePadding w ax).2 w = .right := by
        simp [BC.needTrimming, BC.makePadding, hw, hnp.2, not_lt.2 hw]
      rw [this, BC.trimPadding_right_none bc u ax hnp.2 (by linarith)] at ht
      injection ht with ht
      injection ht with _ ht
      exact ht.symm
  subst htr
  rcases lt_or_ge w 0 with hw | hw
  · obtain ⟨n, rfl⟩ : ∃ n : ℕ, w = -(n : ℤ) := ⟨(-w).toNat, by omega⟩
    have m : max 0 (-(-(n : ℤ))) = n := by omega
    rw [m] at a2 a4
    refine ⟨_, BC.trim_lower r n ax (by rw [a3]; simp), ?_, a1, ?_, ?_⟩
    · simp [a2]
    · simp [a3]
    · intro i hi
      have hi' := hi ax
      simp only [a3, Function.update_self, Int.natAbs_neg, Int.natAbs_natCast] at hi'
      simp only
      rw [a4 _ (by simp; omega) (by simp; omega)]
      simp
  · obtain ⟨n, rfl⟩ : ∃ n : ℕ, w = (n : ℤ) := ⟨w.toNat, by omega⟩
    have m : max 0 (-(n : ℤ)) = 0 := by omega
    rw [m] at a2 a4
    refine ⟨_, BC.trim_upper r n ax (by rw [a3]; simp), ?_, a1, ?_, ?_⟩
    · simp [a2]
    · simp [a3]
    · intro i hi
      have hi' := hi ax
      simp only [a3, Function.update_self, Int.natAbs_natCast] at hi'
      simp only
      rw [a4 _ (by simp; omega) (by simp; omega)]
      simp

/-- **C13** Periodic padding, on either side or both, any widths: the result is one period of `u` repeated,
`r[i] = u[(i - lo) mod n]`; in particular trimming it recovers `u`.  Padding an already padded array is
covered by the pair form (the second pad sees the ghost cells of the first). -/
theorem C13_pad_pair_periodic (bc : BC d K) (u : GridArray d K) (lo hi : ℕ) (ax : Fin d)
    (mode : Padding) (hper : bc.types ax = (.periodic, .periodic))
    (hs : u.shape ax = u.grid.shape ax) (hN : 0 < u.grid.shape ax) :
    ∃ r, bc.pad u (.pair lo hi) ax mode = .ok r ∧
      r.shape = Function.update u.shape ax (u.shape ax + lo + hi) ∧
      ∀ i : Idx d, 0 ≤ i ax → i ax < u.shape ax + lo + hi →
        r.data i = u.data (Function.update i ax ((i ax - lo) % (u.grid.shape ax : ℤ))) := by
  have hal : bc.isAligned u ax = .ok () := by
    unfold BC.isAligned
    simp [hper, hs]
  have h0 : BC.Holds u ax u.data 0 := by
    refine ⟨by omega, fun i hi0 hi1 => ?_⟩
    rw [add_zero, ← hs, Int.emod_eq_of_lt hi0 hi1, update_get]
  rw [BC.pad_pair _ _ _ _ _ _ hal]
  obtain ⟨r1, e1, g1, -, s1, h1⟩ := BC.pad1_holds (-(lo : ℤ)) mode hper hN h0
  obtain ⟨r2, e2, g2, -, s2, h2⟩ := BC.pad1_holds (hi : ℤ) mode hper (by rw [g1]; exact hN) h1
  rw [e1]
  have hs2 : r2.shape = Function.update u.shape ax (u.shape ax + lo + hi) := by
    rw [s2, s1]; simp
  refine ⟨r2, e2, hs2, fun i hi0 hi1 => ?_⟩
  rw [h2.2 i hi0 (by rw [hs2]; simp; omega)]
  rw [g2, g1]
  congr 3
  have m1 : max 0 (-(-(lo : ℤ))) = lo := by omega
  have m2 : max 0 (-(hi : ℤ)) = 0 := by omega
  rw [m1, m2]; ring

section
open Fixtures
-- the hypotheses are met by interior face data (Dirichlet) and by 2-d periodic data
example : 0 < uInner.offset 0 ∧ uInner.offset 0 + uInner.shape 0 - 1 < uInner.grid.shape 0 ∧
    (bcDir.types 0).1 ≠ .periodic := by
  refine ⟨by norm_num [uInner], by norm_num [uInner, g4], by decide⟩
example : ∃ r, bcDir.pad uInner (.one (-1)) 0 .extend = .ok r := by
  rw [BC.pad_one _ _ _ _ _ (bcDir.isAligned_face uInner 0 rfl rfl rfl (by decide)),
    show (-1 : ℤ) = -((1 : ℕ) : ℤ) by norm_num,
    BC.pad1_lower _ _ _ _ _ (by norm_num) (by decide) (by norm_num [uInner])]
  have hf0 : Int.fract (uInner.offset 0) = 0 := by norm_num [uInner]
  have hf : ¬ ((0 : ℚ) = 1 / 2) := by norm_num
  simp only [BC.padByType, show (bcDir.types 0).1 = .dirichlet from rfl, hf0, hf, if_false, if_true]
  have := BC.padDirichletEdge_const bcDir uInner.toNArr 1 0 0 .extend (Or.inr rfl)
  rw [show (((1 : ℕ) : ℤ), (0 : ℤ)) = (((1 : ℕ) : ℤ), ((0 : ℕ) : ℤ)) from rfl, this]
  exact ⟨_, rfl⟩
example : bcPer2.types 0 = (.periodic, .periodic) ∧ u34.shape 0 = u34.grid.shape 0 ∧
    0 < u34.grid.shape 0 := by decide
end

end JaxCfd
