import Verif.Lemmas.Ghost

set_option linter.unusedSectionVars false

namespace JaxCfd
namespace BC
variable {d : ℕ} {K : Type} [Field K] [HasNan K]

theorem pad_ok_aligned {bc : BC d K} {u r : GridArray d K} {w : Width} {ax : Fin d} {mode : Padding}
    (h : bc.pad u w ax mode = .ok r) : bc.isAligned u ax = .ok () := by
  unfold pad at h
  rw [Except.bind_eq_ok] at h
  obtain ⟨a, ha, -⟩ := h
  exact ha

theorem pad_pair (bc : BC d K) (u : GridArray d K) (ax : Fin d) (lo hi : ℤ) (mode : Padding)
    (h : bc.isAligned u ax = .ok ()) :
    bc.pad u (.pair lo hi) ax mode = bc.pad1 u (-lo) ax mode >>= fun u => bc.pad1 u hi ax mode := by
  unfold pad
  rw [h]
  rfl

/-- Shape, offset and grid after `pad` with a pair of widths. -/
theorem pad_pair_spec {bc : BC d K} {u r : GridArray d K} {ax : Fin d} {lo hi : ℕ} {mode : Padding}
    (h : bc.pad u (.pair lo hi) ax mode = .ok r)
    (ho : u.offset ax ≤ u.grid.shape ax) (hN : 0 < u.grid.shape ax) :
    r.grid = u.grid ∧ r.offset = Function.update u.offset ax (u.offset ax - lo) ∧
    r.shape = Function.update u.shape ax (u.shape ax + lo + hi) := by
  rw [pad_pair _ _ _ _ _ _ (pad_ok_aligned h), Except.bind_eq_ok] at h
  obtain ⟨v, hv, h⟩ := h
  obtain ⟨-, -, -, -, -, a1, a2, a3, -⟩ := pad1_spec hv ho hN
  have m1 : max 0 (-(-(lo : ℤ))) = lo := by omega
  rw [m1] at a2
  obtain ⟨-, -, -, -, -, b1, b2, b3, -⟩ := pad1_spec h
    (by rw [a1, a2]; simp only [Function.update_self]; push_cast; linarith [(Nat.cast_nonneg lo : (0 : ℚ) ≤ lo)])
    (by rw [a1]; exact hN)
  have m2 : max 0 (-(hi : ℤ)) = 0 := by omega
  rw [m2] at b2
  refine ⟨by rw [b1, a1], ?_, ?_⟩
  · rw [b2, a2]; simp
  · rw [b3, a3]; simp

/-- Trimming of a periodic array at least as large as the grid leaves exactly one period. -/
theorem trimPadding_periodic_big {bc : BC d K} {u : GridArray d K} {ax : Fin d}
    (hper : bc.types ax = (.periodic, .periodic)) (hge : u.grid.shape ax ≤ u.shape ax)
    (hN : 0 < u.grid.shape ax) :
    ∃ v tr, bc.trimPadding u ax .both = .ok (v, tr) ∧ v.shape ax = u.grid.shape ax ∧
      0 ≤ tr.1 ∧ 0 ≤ tr.2 ∧ v.grid = u.grid ∧
      v.shape = Function.update u.shape ax (v.shape ax) ∧
      (v.shape ax : ℤ) + tr.1 + tr.2 = u.shape ax ∧
      (v.data = fun i => u.data (Function.update i ax (i ax + tr.1))) := by
  have hlow : ∃ n : ℕ, (n : ℤ) ≤ (u.shape ax : ℤ) - u.grid.shape ax ∧ ∃ v1 : GridArray d K,
      bc.trimPaddingLower u ax .both = .ok (v1, -(n : ℤ)) ∧ v1.grid = u.grid ∧
      v1.shape = Function.update u.shape ax (u.shape ax - n) ∧
      v1.data = fun i => u.data (Function.update i ax (i ax + n)) := by
    unfold trimPaddingLower
    by_cases h : u.offset ax ≤ 0 ∧ (TrimSide.both = TrimSide.both ∨ TrimSide.both = TrimSide.left)
    · rw [if_pos h]
      have hc : (0 : ℤ) ≤ ⌈-(u.offset ax)⌉ := Int.ceil_nonneg (by linarith [h.1])
      obtain ⟨n, hn⟩ : ∃ n : ℕ, max (-⌈-(u.offset ax)⌉) ((u.grid.shape ax : ℤ) - u.shape ax) = -(n : ℤ) :=
        ⟨(-(max (-⌈-(u.offset ax)⌉) ((u.grid.shape ax : ℤ) - u.shape ax))).toNat, by omega⟩
      refine ⟨n, by omega, ?_⟩
      simp only [hper, if_true, hn]
      rw [trim_lower _ _ _ (by omega)]
      exact ⟨_, rfl, rfl, rfl, rfl⟩
    · rw [if_neg h]
      exact ⟨0, by simp; omega, u, by simp, rfl, by simp, by simp⟩
  obtain ⟨n, hn, v1, h1, g1, s1, d1⟩ := hlow
  have s1' : v1.shape ax = u.shape ax - n := by rw [s1]; simp
  have hpt : bc.positiveTrim v1 ax .both = ((v1.shape ax - u.grid.shape ax : ℕ) : ℤ) := by
    unfold positiveTrim
    simp only [or_true, if_true, hper, g1]
    omega
  unfold trimPadding
  rw [if_pos hge, h1]
  simp only [Except.bind_ok, hpt]
  have h2 : trimUpperIf v1 ((v1.shape ax - u.grid.shape ax : ℕ) : ℤ) ax =
      .ok ⟨⟨Function.update v1.shape ax (u.grid.shape ax), v1.data⟩, v1.offset, v1.grid⟩ := by
    unfold trimUpperIf
    by_cases hz : ((v1.shape ax - u.grid.shape ax : ℕ) : ℤ) > 0
    · rw [if_pos hz]
      rw [trim_upper _ _ _ (by omega)]
      congr 4; omega
    · rw [if_neg hz]
      have e : u.grid.shape ax = v1.shape ax := by omega
      rw [e, Function.update_eq_self]
  rw [h2]
  refine ⟨_, _, rfl, by simp, by simp, by simp, g1, ?_, ?_, ?_⟩
  · simp [s1]
  · simp; omega
  · simp [d1]

/-- An array holds (at least one period of) the periodic field `f`, its entry `i` being `f (i + c)`. -/
def Holds (u : GridArray d K) (ax : Fin d) (f : Idx d → K) (c : ℤ) : Prop :=
  u.grid.shape ax ≤ u.shape ax ∧
  ∀ i : Idx d, 0 ≤ i ax → i ax < u.shape ax →
    u.data i = f (Function.update i ax ((i ax + c) % (u.grid.shape ax : ℤ)))

/-- Periodic padding of an array that holds a periodic field yields an array that holds the same field. -/
theorem pad1_holds {bc : BC d K} {u : GridArray d K} {ax : Fin d} {f : Idx d → K} {c : ℤ} (w : ℤ)
    (mode : Padding) (hper : bc.types ax = (.periodic, .periodic)) (hN : 0 < u.grid.shape ax)
    (h : Holds u ax f c) :
    ∃ r, bc.pad1 u w ax mode = .ok r ∧ r.grid = u.grid ∧
      r.offset = Function.update u.offset ax (u.offset ax - ((max 0 (-w) : ℤ) : ℚ)) ∧
      r.shape = Function.update u.shape ax (u.shape ax + w.natAbs) ∧
      Holds r ax f (c - max 0 (-w)) := by
  obtain ⟨hge, hd⟩ := h
  obtain ⟨v, tr, ht, hv, t1, t2, hg, hs, hsum, hdat⟩ := trimPadding_periodic_big hper hge hN
  have hp : bc.makePadding w ax = ((max 0 (-w), max 0 w), .periodic) := by
    unfold makePadding
    by_cases hw : w < 0
    · rw [if_pos hw, hper]; simp only [Prod.mk.injEq, and_true]; omega
    · rw [if_neg hw, hper]; simp only [Prod.mk.injEq, and_true]; omega
  unfold pad1
  simp only [hp, needTrimming, if_true, ht, Except.bind_ok, padByType]
  rw [jnpPad_ok _ _ _ _ (by simp; omega) (by simp; omega) (Or.inr (by omega))]
  refine ⟨_, rfl, rfl, rfl, ?_, ?_, ?_⟩
  · show Function.update v.shape ax _ = _
    have hs' : v.shape = Function.update u.shape ax (u.grid.shape ax) := by rw [hs, hv]
    rw [hv, hs', Function.update_idem]
    congr 1; simp only; omega
  · simp only [Function.update_self]; omega
  · intro i h0 h1
    simp only [Function.update_self] at h1 ⊢
    simp only [padData, padIdxData, wrapIdx, hv, hdat]
    have hN' : (0 : ℤ) < u.grid.shape ax := by omega
    have e0 := Int.emod_nonneg (i ax - (max 0 (-w) + tr.1)) (by omega : (u.grid.shape ax : ℤ) ≠ 0)
    have e1 := Int.emod_lt_of_pos (i ax - (max 0 (-w) + tr.1)) hN'
    rw [hd _ (by simp; omega) (by simp; omega)]
    simp only [Function.update_self, Function.update_idem]
    congr 2
    rw [add_assoc, Int.emod_add_emod]
    congr 1; ring

end BC
end JaxCfd
