import Verif.Lemmas.PadTrim
import Verif.Spec

set_option linter.unusedSectionVars false

namespace JaxCfd
namespace BC
variable {d : ℕ} {K : Type} [Field K] [HasNan K]

/-- First kept index of `trim_boundary` along a non-periodic axis. -/
def trimLo (o : ℚ) : ℕ := (⌊-o⌋ + 1).toNat
/-- One past the last kept index. -/
def trimHi (s N : ℕ) (o : ℚ) : ℕ := min s (⌈(N : ℚ) - o⌉).toNat

theorem trimLo_iff (o : ℚ) (j : ℤ) (hj : 0 ≤ j) : (trimLo o : ℤ) ≤ j ↔ 0 < o + j := by
  unfold trimLo
  have : ⌊-o⌋ < j ↔ -o < j := Int.floor_lt
  constructor
  · intro h
    have : -o < j := this.1 (by omega)
    linarith
  · intro h
    have := this.2 (by linarith)
    omega

theorem trimHi_iff (s N : ℕ) (o : ℚ) (j : ℤ) (hj : 0 ≤ j) :
    j < (trimHi s N o : ℤ) ↔ j < s ∧ o + j < N := by
  unfold trimHi
  have : j < ⌈(N : ℚ) - o⌉ ↔ (j : ℚ) < (N : ℚ) - o := Int.lt_ceil
  constructor
  · intro h
    refine ⟨by omega, ?_⟩
    have := this.1 (by omega)
    linarith
  · rintro ⟨h1, h2⟩
    have := this.2 (by linarith)
    omega

theorem ceil_eq_floor_add_one {q : ℚ} (h : Int.fract q ≠ 0) : ⌈q⌉ = ⌊q⌋ + 1 := by
  rw [Int.ceil_eq_iff]
  push_cast
  have := Int.self_sub_floor q
  have h0 := Int.fract_nonneg q
  have h1 := Int.fract_lt_one q
  have : 0 < Int.fract q := lt_of_le_of_ne h0 (Ne.symm h)
  constructor <;> linarith

theorem fract_neg_ne {q : ℚ} (h : Int.fract q ≠ 0) : Int.fract (-q) ≠ 0 := by
  intro h'
  apply h
  rw [Int.fract_eq_iff] at h' ⊢
  obtain ⟨-, -, z, hz⟩ := h'
  exact ⟨le_rfl, by norm_num, -z, by push_cast; linarith⟩

/-- `_trim_padding` of both sides along a non-periodic axis. -/
theorem trimPadding_both (bc : BC d K) (u : GridArray d K) (ax : Fin d)
    (h1 : (bc.types ax).1 ≠ .periodic) (h2 : (bc.types ax).2 ≠ .periodic)
    (hu : (bc.types ax).2 = .dirichlet ∨ Int.fract (u.offset ax) ≠ 0)
    (hlo : -(u.shape ax : ℚ) < u.offset ax) (hN : u.offset ax ≤ u.grid.shape ax)
    (hge : u.grid.shape ax ≤ u.shape ax) (hNpos : 0 < u.grid.shape ax) :
    ∃ tr, bc.trimPadding u ax .both =
      .ok (⟨⟨Function.update u.shape ax (trimHi (u.shape ax) (u.grid.shape ax) (u.offset ax) -
          trimLo (u.offset ax)),
        fun i => u.data (Function.update i ax (i ax + trimLo (u.offset ax)))⟩,
        Function.update u.offset ax (u.offset ax + trimLo (u.offset ax)), u.grid⟩, tr) := by
  have hlow : ∃ t : ℤ, bc.trimPaddingLower u ax .both = .ok
      (⟨⟨Function.update u.shape ax (u.shape ax - trimLo (u.offset ax)),
        fun i => u.data (Function.update i ax (i ax + trimLo (u.offset ax)))⟩,
        Function.update u.offset ax (u.offset ax + trimLo (u.offset ax)), u.grid⟩, t) := by
    unfold trimPaddingLower
    by_cases h : u.offset ax ≤ 0 ∧ (TrimSide.both = TrimSide.both ∨ TrimSide.both = TrimSide.left)
    · rw [if_pos h]
      have hfl : (0 : ℤ) ≤ ⌊-(u.offset ax)⌋ := Int.floor_nonneg.2 (by linarith [h.1])
      have hle : trimLo (u.offset ax) ≤ u.shape ax := by
        have : ⌊-(u.offset ax)⌋ < (u.shape ax : ℤ) := Int.floor_lt.2 (by push_cast; linarith)
        unfold trimLo; omega
      have key : (if (bc.types ax).1 = .periodic then
          max (-⌈-(u.offset ax)⌉) ((u.grid.shape ax : ℤ) - u.shape ax)
        else if Int.fract (u.offset ax) = 0 then -⌈-(u.offset ax)⌉ - 1
        else -⌈-(u.offset ax)⌉) = -((trimLo (u.offset ax) : ℕ) : ℤ) := by
        rw [if_neg h1]
        by_cases hf : Int.fract (u.offset ax) = 0
        · rw [if_pos hf]
          have : ⌈-(u.offset ax)⌉ = ⌊-(u.offset ax)⌋ := by
            rw [Int.fract_eq_iff] at hf
            obtain ⟨-, -, z, hz⟩ := hf
            have : u.offset ax = z := by linarith
            rw [this, ← Int.cast_neg, Int.ceil_intCast, Int.floor_intCast]
          unfold trimLo; omega
        · rw [if_neg hf, ceil_eq_floor_add_one (fract_neg_ne hf)]
          unfold trimLo; omega
      dsimp only
      rw [key, trim_lower _ _ _ hle]
      exact ⟨_, rfl⟩
    · rw [if_neg h]
      have h0 : trimLo (u.offset ax) = 0 := by
        have ho : 0 < u.offset ax := by
          by_contra hh
          exact h ⟨by linarith, Or.inl rfl⟩
        have : ⌊-(u.offset ax)⌋ < 0 := Int.floor_lt.2 (by push_cast; linarith)
        unfold trimLo; omega
      exact ⟨0, by simp [h0]⟩
  obtain ⟨t, ht⟩ := hlow
  unfold trimPadding
  rw [if_pos hge, ht]
  simp only [Except.bind_ok]
  set o := u.offset ax with ho
  set N := u.grid.shape ax with hNdef
  set s := u.shape ax with hs
  set lo := trimLo o with hlodef
  have hloS : lo ≤ s := by
    by_cases h : 0 < o
    · have : ⌊-o⌋ < 0 := Int.floor_lt.2 (by push_cast; linarith)
      simp only [hlodef]; unfold trimLo; omega
    · have : ⌊-o⌋ < (s : ℤ) := Int.floor_lt.2 (by push_cast; linarith)
      simp only [hlodef]; unfold trimLo; omega
  have hcN : (0 : ℤ) ≤ ⌈(N : ℚ) - o⌉ := Int.ceil_nonneg (by linarith)
  -- everything is decided by comparing with `⌈N - o⌉`
  have hloC : (lo : ℤ) ≤ ⌈(N : ℚ) - o⌉ := by
    by_cases h : 0 < o
    · have : ⌊-o⌋ < 0 := Int.floor_lt.2 (by push_cast; linarith)
      simp only [hlodef]; unfold trimLo; omega
    · have h3 : ⌊-o⌋ + 1 ≤ ⌈(N : ℚ) - o⌉ := by
        have a1 : (⌊-o⌋ : ℚ) ≤ -o := Int.floor_le _
        have a2 : (N : ℚ) - o ≤ ⌈(N : ℚ) - o⌉ := Int.le_ceil _
        have a3 : (1 : ℚ) ≤ N := by exact_mod_cast hNpos
        have : ((⌊-o⌋ + 1 : ℤ) : ℚ) ≤ (⌈(N : ℚ) - o⌉ : ℤ) := by push_cast; linarith
        exact_mod_cast this
      have : (lo : ℤ) = (⌊-o⌋ + 1).toNat := rfl
      omega
  have hpt : bc.positiveTrim (⟨⟨Function.update u.shape ax (s - lo),
        fun i => u.data (Function.update i ax (i ax + lo))⟩,
        Function.update u.offset ax (o + lo), u.grid⟩ : GridArray d K) ax .both =
      ((s - trimHi s N o : ℕ) : ℤ) := by
    unfold positiveTrim
    rw [if_pos (by simp), if_neg h2]
    simp only [Function.update_self]
    have hfr : Int.fract (o + lo) = Int.fract o := by
      rw [show (lo : ℚ) = ((lo : ℤ) : ℚ) by push_cast; rfl, Int.fract_add_intCast]
    rw [hfr]
    have hlast : (((s - lo : ℕ) : ℚ) + (o + lo) - 1 - N) = -((N : ℚ) - o) + ((s - 1 : ℤ) : ℚ) := by
      push_cast [Nat.cast_sub hloS]; ring
    have hceil : ⌈((s - lo : ℕ) : ℚ) + (o + lo) - 1 - N⌉ = -⌊(N : ℚ) - o⌋ + (s - 1) := by
      rw [hlast, Int.ceil_add_intCast, Int.ceil_neg]
    have hcond : (((s - lo : ℕ) : ℚ) + (o + lo) - 1 ≥ N) ↔ ⌈(N : ℚ) - o⌉ ≤ (s : ℤ) - 1 := by
      rw [Int.ceil_le]; push_cast [Nat.cast_sub hloS]
      constructor <;> intro h <;> linarith
    show (if ((s - lo : ℕ) : ℚ) + (o + lo) - 1 ≥ N then _ else _) = _
    by_cases hc : ((s - lo : ℕ) : ℚ) + (o + lo) - 1 ≥ N
    · rw [if_pos hc]
      have hc' := hcond.1 hc
      have hceil' := hceil
      by_cases hf : Int.fract o = 0
      · have hd : (bc.types ax).2 = .dirichlet := hu.resolve_right (by simp [hf])
        rw [if_pos ⟨hd, hf⟩]
        show ⌈((s - lo : ℕ) : ℚ) + (o + lo) - 1 - N⌉ + 1 = _
        rw [hceil]
        have : ⌊(N : ℚ) - o⌋ = ⌈(N : ℚ) - o⌉ := by
          rw [Int.fract_eq_iff] at hf
          obtain ⟨-, -, z, hz⟩ := hf
          have hz' : (N : ℚ) - o = ((N - z : ℤ) : ℚ) := by push_cast; linarith
          rw [hz', Int.floor_intCast, Int.ceil_intCast]
        unfold trimHi; omega
      · rw [if_neg (fun h => hf h.2)]
        show ⌈((s - lo : ℕ) : ℚ) + (o + lo) - 1 - N⌉ = _
        rw [hceil]
        have : ⌈(N : ℚ) - o⌉ = ⌊(N : ℚ) - o⌋ + 1 := by
          apply ceil_eq_floor_add_one
          intro h0
          apply hf
          rw [Int.fract_eq_iff] at h0 ⊢
          obtain ⟨-, -, z, hz⟩ := h0
          exact ⟨le_rfl, by norm_num, N - z, by push_cast; linarith⟩
        unfold trimHi; omega
    · rw [if_neg hc]
      have hc' := (not_congr hcond).1 hc
      unfold trimHi; omega
  rw [hpt]
  have hhi : lo ≤ trimHi s N o := by unfold trimHi; omega
  have hhs : trimHi s N o ≤ s := by unfold trimHi; omega
  have hup : trimUpperIf (⟨⟨Function.update u.shape ax (s - lo),
        fun i => u.data (Function.update i ax (i ax + lo))⟩,
        Function.update u.offset ax (o + lo), u.grid⟩ : GridArray d K)
        ((s - trimHi s N o : ℕ) : ℤ) ax = .ok ⟨⟨Function.update u.shape ax (trimHi s N o - lo),
        fun i => u.data (Function.update i ax (i ax + lo))⟩,
        Function.update u.offset ax (o + lo), u.grid⟩ := by
    unfold trimUpperIf
    by_cases hz : ((s - trimHi s N o : ℕ) : ℤ) > 0
    · rw [if_pos hz, trim_upper _ _ _ (by simp; omega)]
      simp only [Function.update_self, Function.update_idem]
      congr 4; omega
    · rw [if_neg hz]
      congr 4; omega
  rw [hup]
  exact ⟨_, rfl⟩

/-- One axis of `trim_boundary`, non-periodic. -/
theorem trimBoundaryAxis_nonper (bc : BC d K) (u : GridArray d K) (ax : Fin d)
    (h1 : (bc.types ax).1 ≠ .periodic) (h2 : (bc.types ax).2 ≠ .periodic)
    (hu : (bc.types ax).2 = .dirichlet ∨ Int.fract (u.offset ax) ≠ 0)
    (hlo : -(u.shape ax : ℚ) < u.offset ax) (hN : u.offset ax ≤ u.grid.shape ax)
    (hNpos : 0 < u.grid.shape ax) (hal : bc.isAligned u ax = .ok ()) :
    bc.trimBoundaryAxis u ax =
      .ok ⟨⟨Function.update u.shape ax (trimHi (u.shape ax) (u.grid.shape ax) (u.offset ax) -
          trimLo (u.offset ax)),
        fun i => u.data (Function.update i ax (i ax + trimLo (u.offset ax)))⟩,
        Function.update u.offset ax (u.offset ax + trimLo (u.offset ax)), u.grid⟩ := by
  unfold trimBoundaryAxis
  rw [hal, Except.bind_ok]
  by_cases hge : u.grid.shape ax ≤ u.shape ax
  · obtain ⟨tr, h⟩ := trimPadding_both bc u ax h1 h2 hu hlo hN hge hNpos
    rw [h]; rfl
  · -- fewer points than the grid: only possible for interior face data
    have ho : u.offset ax = 1 := by
      by_contra hne
      unfold isAligned at hal
      simp only [hne, and_false, if_false] at hal
      by_cases hh : (bc.types ax).1 = .neumann ∧ Int.fract (u.offset ax) = 0
      · rw [if_pos hh] at hal; cases hal
      · rw [if_neg hh, if_pos (by omega)] at hal; cases hal
    have e1 : trimLo (1 : ℚ) = 0 := by
      have : ⌊-(1 : ℚ)⌋ = -1 := by norm_num
      simp [trimLo, this]
    have e2 : trimHi (u.shape ax) (u.grid.shape ax) 1 = u.shape ax := by
      have : ⌈(u.grid.shape ax : ℚ) - 1⌉ = (u.grid.shape ax : ℤ) - 1 := by
        rw [show (u.grid.shape ax : ℚ) - 1 = ((u.grid.shape ax - 1 : ℤ) : ℚ) by push_cast; ring,
          Int.ceil_intCast]
      unfold trimHi; rw [this]; omega
    unfold trimPadding
    rw [if_neg (by omega), ho, e1, e2]
    simp [Except.bind_ok, Except.pure_eq_ok, ← ho]

theorem trimBoundaryAxis_per (bc : BC d K) (u : GridArray d K) (ax : Fin d)
    (hper : bc.types ax = (.periodic, .periodic)) (hs : u.shape ax = u.grid.shape ax) :
    bc.trimBoundaryAxis u ax = .ok u := by
  have hal : bc.isAligned u ax = .ok () := by
    unfold isAligned
    simp [hper, hs]
  unfold trimBoundaryAxis
  rw [hal, Except.bind_ok, trimPadding_periodic bc u ax .both hper hs]
  rfl

/-- Whether the array is acceptable to `trim_boundary` along one axis. -/
def TrimOK (bc : BC d K) (u : GridArray d K) (a : Fin d) : Prop :=
  (bc.types a = (.periodic, .periodic) ∧ u.shape a = u.grid.shape a) ∨
  ((bc.types a).1 ≠ .periodic ∧ (bc.types a).2 ≠ .periodic ∧
    ((bc.types a).2 = .dirichlet ∨ Int.fract (u.offset a) ≠ 0) ∧
    -(u.shape a : ℚ) < u.offset a ∧ u.offset a ≤ u.grid.shape a ∧ 0 < u.grid.shape a ∧
    bc.isAligned u a = .ok ())

/-- The lower trim along one axis. -/
def axLo (bc : BC d K) (u : GridArray d K) (a : Fin d) : ℕ :=
  if (bc.types a).1 = .periodic then 0 else trimLo (u.offset a)

/-- The new size along one axis. -/
def axSize (bc : BC d K) (u : GridArray d K) (a : Fin d) : ℕ :=
  if (bc.types a).1 = .periodic then u.shape a
  else trimHi (u.shape a) (u.grid.shape a) (u.offset a) - trimLo (u.offset a)

theorem trimBoundaryAxis_ok (bc : BC d K) (u : GridArray d K) (a : Fin d) (h : TrimOK bc u a) :
    bc.trimBoundaryAxis u a = .ok ⟨⟨Function.update u.shape a (axSize bc u a),
      fun i => u.data (Function.update i a (i a + axLo bc u a))⟩,
      Function.update u.offset a (u.offset a + axLo bc u a), u.grid⟩ := by
  rcases h with ⟨h1, h2⟩ | ⟨h1, h2, h3, h4, h5, h6, h7⟩
  · rw [trimBoundaryAxis_per _ _ _ h1 h2]
    simp [axSize, axLo, h1]
  · rw [trimBoundaryAxis_nonper _ _ _ h1 h2 h3 h4 h5 h6 h7]
    simp [axSize, axLo, h1]

theorem TrimOK_congr {bc : BC d K} {u v : GridArray d K} {a : Fin d} (hs : v.shape a = u.shape a)
    (ho : v.offset a = u.offset a) (hg : v.grid = u.grid) (h : TrimOK bc u a) : TrimOK bc v a := by
  unfold TrimOK isAligned at *
  rw [hs, ho, hg]
  exact h

theorem trimFold (bc : BC d K) (l : List (Fin d)) (hl : l.Nodup) (u : GridArray d K)
    (h : ∀ a ∈ l, TrimOK bc u a) :
    l.foldlM (fun u a => bc.trimBoundaryAxis u a) u =
      .ok ⟨⟨fun a => if a ∈ l then axSize bc u a else u.shape a,
        fun i => u.data fun a => if a ∈ l then i a + axLo bc u a else i a⟩,
        fun a => if a ∈ l then u.offset a + axLo bc u a else u.offset a, u.grid⟩ := by
  induction l generalizing u with
  | nil => simp [List.foldlM, Except.pure_eq_ok]
  | cons a l ih =>
    rw [List.nodup_cons] at hl
    rw [List.foldlM_cons, trimBoundaryAxis_ok _ _ _ (h a (by simp)), Except.bind_ok]
    rw [ih hl.2 _ (fun b hb => by
      have hba : b ≠ a := fun e => hl.1 (e ▸ hb)
      refine TrimOK_congr (u := u) ?_ ?_ rfl (h b (by simp [hb]))
      · exact Function.update_of_ne hba _ _
      · exact Function.update_of_ne hba _ _)]
    have key : ∀ b ∈ l, b ≠ a := fun b hb e => hl.1 (e ▸ hb)
    congr 1
    apply GridArray.ext'
    · funext b
      by_cases hb : b ∈ l
      · have hba := key b hb
        simp [hb, axSize, Function.update_of_ne hba]
      · by_cases hba : b = a
        · subst hba; simp [hb]
        · simp [hb, hba]
    · funext i
      simp only
      congr 1
      funext b
      by_cases hb : b ∈ l
      · have hba := key b hb
        simp [hb, axLo, Function.update_of_ne hba]
      · by_cases hba : b = a
        · subst hba; simp [hb]
        · simp [hb, hba]
    · funext b
      by_cases hb : b ∈ l
      · have hba := key b hb
        simp [hb, axLo, Function.update_of_ne hba]
      · by_cases hba : b = a
        · subst hba; simp [hb]
        · simp [hb, hba]
    · rfl

/-- Closed form of `trim_boundary`. -/
theorem trimBoundary_ok (bc : BC d K) (u : GridArray d K) (h : ∀ a, TrimOK bc u a) :
    bc.trimBoundary u = .ok ⟨⟨axSize bc u, fun i => u.data fun a => i a + axLo bc u a⟩,
      fun a => u.offset a + axLo bc u a, u.grid⟩ := by
  unfold trimBoundary
  rw [trimFold bc _ (List.nodup_finRange d) u (fun a _ => h a)]
  simp

/-- The boundary value assigned by `impose_bc` at position `j` along axis `a` of a variable with offset `o`,
if `j` is a wall point. -/
def wallVal (bc : BC d K) (N : Fin d → ℕ) (o : Fin d → ℚ) (a : Fin d) (j : ℤ) : Option K :=
  if (bc.types a).1 = .dirichlet ∧ o a = 0 ∧ j = 0 then some (bc.constantValues a).1
  else if (bc.types a).1 = .dirichlet ∧ o a = 1 ∧ j = (N a : ℤ) - 1 then some (bc.constantValues a).2
  else none

/-- Whether axis `a` is ready for the padding half of `impose_bc` with target offset `o`. -/
def PadReady (bc : BC d K) (o : Fin d → ℚ) (v : GridArray d K) (a : Fin d) : Prop :=
  0 < v.grid.shape a ∧
  ((bc.isAligned v a = .ok () ∧ v.shape a = v.grid.shape a ∧ v.offset a = o a ∧
      ¬ ((bc.types a).1 = .dirichlet ∧ (o a = 0 ∨ o a = 1))) ∨
    ((bc.types a).1 = .dirichlet ∧ (bc.types a).2 = .dirichlet ∧ v.offset a = 1 ∧
      v.shape a = v.grid.shape a - 1 ∧ (o a = 0 ∨ o a = 1)))

def padLo (bc : BC d K) (o : Fin d → ℚ) (a : Fin d) : ℤ :=
  if (bc.types a).1 = .dirichlet ∧ o a = 0 then 1 else 0

theorem PadReady_congr {bc : BC d K} {o : Fin d → ℚ} {u v : GridArray d K} {a : Fin d}
    (hs : v.shape a = u.shape a) (ho : v.offset a = u.offset a) (hg : v.grid = u.grid)
    (h : PadReady bc o u a) : PadReady bc o v a := by
  unfold PadReady isAligned at *
  rw [hs, ho, hg]
  exact h

theorem padImposeAxis_ok (bc : BC d K) (o : Fin d → ℚ) (mode : Padding) (v : GridArray d K) (a : Fin d)
    (h : PadReady bc o v a) :
    ∃ r, bc.padImposeAxis o mode v a = .ok r ∧ r.shape = Function.update v.shape a (v.grid.shape a) ∧
      r.offset = Function.update v.offset a (o a) ∧ r.grid = v.grid ∧
      ∀ i : Idx d, 0 ≤ i a → i a < v.grid.shape a →
        r.data i = (wallVal bc v.grid.shape o a (i a)).getD
          (v.data (Function.update i a (i a - padLo bc o a))) := by
  obtain ⟨hN, ⟨hal, hs, ho, hE⟩ | ⟨t1, t2, ho, hs, hoo⟩⟩ := h
  · refine ⟨v, ?_, ?_, ?_, rfl, ?_⟩
    · unfold padImposeAxis
      rw [hal, Except.bind_ok, if_neg]
      · rfl
      · rintro ⟨x, y⟩
        exact hE ⟨x, Or.inr (by rw [← ho, y])⟩
    · rw [← hs, Function.update_eq_self]
    · rw [← ho, Function.update_eq_self]
    · intro i _ _
      have h1 : wallVal bc v.grid.shape o a (i a) = none := by
        unfold wallVal
        rw [if_neg (fun hh => hE ⟨hh.1, Or.inl hh.2.1⟩), if_neg (fun hh => hE ⟨hh.1, Or.inr hh.2.1⟩)]
      have h2 : padLo bc o a = 0 := by
        unfold padLo
        rw [if_neg (fun hh => hE ⟨hh.1, Or.inl hh.2⟩)]
      rw [h1, h2, sub_zero, Function.update_eq_self]; rfl
  · have hal : bc.isAligned v a = .ok () := isAligned_face bc v a t1 t2 ho (by omega)
    have hf0 : Int.fract (v.offset a) = 0 := by rw [ho]; norm_num
    have hf : ¬ ((0 : ℚ) = 1 / 2) := by norm_num
    have np : ¬ (BCType.dirichlet = BCType.periodic) := by decide
    rcases hoo with h0 | h1
    · -- lower wall
      have e : bc.padImposeAxis o mode v a = bc.pad1 v (-1) a mode := by
        unfold padImposeAxis
        rw [hal, Except.bind_ok, if_pos ⟨t1, ho⟩, if_neg (by rw [h0]; norm_num), if_pos h0]
      have e2 := pad1_lower bc v a 1 mode (by norm_num) (by rw [t1]; exact np) (by rw [ho]; norm_num)
      rw [e, show (-1 : ℤ) = -((1 : ℕ) : ℤ) by norm_num, e2]
      simp only [padByType, t1, hf0, hf, if_false, if_true]
      have e3 := padDirichletEdge_const bc v.toNArr 1 0 a mode (Or.inl (by norm_num))
      rw [show (((1 : ℕ) : ℤ), (0 : ℤ)) = (((1 : ℕ) : ℤ), ((0 : ℕ) : ℤ)) from rfl, e3]
      refine ⟨_, rfl, ?_, ?_, rfl, ?_⟩
      · simp only; congr 1; omega
      · simp only; congr 1; rw [ho, h0]; norm_num
      · intro i hi0 hi1
        simp only [padData]
        have hl : padLo bc o a = 1 := by unfold padLo; rw [if_pos ⟨t1, h0⟩]
        unfold wallVal
        by_cases hz : i a = 0
        · rw [if_pos (by rw [hz]; norm_num), if_pos ⟨t1, h0, hz⟩]; rfl
        · rw [if_neg (by push_cast; omega), if_pos (by push_cast; omega), if_neg (fun hh => hz hh.2.2),
            if_neg (fun hh => by rw [h0] at hh; exact absurd hh.2.1 (by norm_num)), hl]
          rfl
    · have e : bc.padImposeAxis o mode v a = bc.pad1 v 1 a mode := by
        unfold padImposeAxis
        rw [hal, Except.bind_ok, if_pos ⟨t1, ho⟩, if_pos h1]
      have e2 := pad1_upper bc v a 1 mode (by rw [t2]; exact np)
        (by
          rw [ho, hs]
          have : ((v.grid.shape a - 1 : ℕ) : ℚ) = (v.grid.shape a : ℚ) - 1 := by
            rw [Nat.cast_sub (by omega)]; norm_num
          rw [this]; linarith)
      rw [e, show (1 : ℤ) = ((1 : ℕ) : ℤ) by norm_num, e2]
      simp only [padByType, t2, hf0, hf, if_false, if_true]
      have e3 := padDirichletEdge_const bc v.toNArr 0 1 a mode (Or.inl (by norm_num))
      rw [show ((0 : ℤ), ((1 : ℕ) : ℤ)) = (((0 : ℕ) : ℤ), ((1 : ℕ) : ℤ)) from rfl, e3]
      refine ⟨_, rfl, ?_, ?_, rfl, ?_⟩
      · simp only; congr 1; omega
      · simp only; rw [h1, ← ho, Function.update_eq_self]
      · intro i hi0 hi1
        simp only [padData]
        have hl : padLo bc o a = 0 := by
          unfold padLo; rw [if_neg (fun hh => by rw [h1] at hh; exact absurd hh.2 (by norm_num))]
        unfold wallVal
        rw [if_neg (by push_cast; omega), if_neg (c := _ ∧ o a = 0 ∧ _)
          (fun hh => by rw [h1] at hh; exact absurd hh.2.1 (by norm_num))]
        by_cases hz : i a = (v.grid.shape a : ℤ) - 1
        · rw [if_neg (by push_cast; omega), if_pos ⟨t1, h1, hz⟩]; rfl
        · rw [if_pos (by push_cast; omega), if_neg (fun hh => hz hh.2.2), hl]
          rfl

theorem padFold (bc : BC d K) (o : Fin d → ℚ) (mode : Padding) (l : List (Fin d)) (hl : l.Nodup)
    (v : GridArray d K) (h : ∀ a ∈ l, PadReady bc o v a) :
    ∃ r, l.foldlM (bc.padImposeAxis o mode) v = .ok r ∧
      (r.shape = fun a => if a ∈ l then v.grid.shape a else v.shape a) ∧
      (r.offset = fun a => if a ∈ l then o a else v.offset a) ∧ r.grid = v.grid ∧
      ∀ i : Idx d, (∀ a ∈ l, 0 ≤ i a ∧ i a < v.grid.shape a) →
        r.data i = l.foldl (fun acc a => (wallVal bc v.grid.shape o a (i a)).getD acc)
          (v.data fun a => if a ∈ l then i a - padLo bc o a else i a) := by
  induction l generalizing v with
  | nil => exact ⟨v, rfl, by simp, by simp, rfl, by simp⟩
  | cons a l ih =>
    rw [List.nodup_cons] at hl
    have key : ∀ b ∈ l, b ≠ a := fun b hb e => hl.1 (e ▸ hb)
    obtain ⟨w, hw, ws, wo, wg, wd⟩ := padImposeAxis_ok bc o mode v a (h a (by simp))
    obtain ⟨r, hr, rs, ro, rg, rd⟩ := ih hl.2 w (fun b hb => by
      refine PadReady_congr (u := v) ?_ ?_ wg (h b (by simp [hb]))
      · rw [ws]; exact Function.update_of_ne (key b hb) _ _
      · rw [wo]; exact Function.update_of_ne (key b hb) _ _)
    refine ⟨r, by rw [List.foldlM_cons, hw]; exact hr, ?_, ?_, by rw [rg, wg], ?_⟩
    · rw [rs]; funext b
      by_cases hb : b ∈ l
      · simp [hb, wg]
      · by_cases hba : b = a
        · subst hba; simp [hb, ws]
        · simp [hb, hba, ws]
    · rw [ro]; funext b
      by_cases hb : b ∈ l
      · simp [hb]
      · by_cases hba : b = a
        · subst hba; simp [hb, wo]
        · simp [hb, hba, wo]
    · intro i hi
      rw [rd i (fun b hb => by rw [wg]; exact hi b (by simp [hb])), List.foldl_cons, wg]
      congr 1
      have ha := hi a (by simp)
      rw [wd _ (by simp [hl.1, ha.1]) (by simp [hl.1, ha.2])]
      simp only [hl.1, if_false]
      congr 2
      funext b
      by_cases hba : b = a
      · subst hba; simp
      · simp [hba]

theorem trimLo_zero : trimLo 0 = 1 := by simp [trimLo]
theorem trimLo_one : trimLo 1 = 0 := by
  have : ⌊-(1 : ℚ)⌋ = -1 := by norm_num
  simp [trimLo, this]
theorem trimLo_half : trimLo (1 / 2) = 0 := by
  have : ⌊-(1 / 2 : ℚ)⌋ = -1 := by rw [Int.floor_eq_iff]; norm_num
  unfold trimLo; rw [this]; rfl
theorem trimHi_zero (n : ℕ) : trimHi n n 0 = n := by simp [trimHi]
theorem trimHi_one (n : ℕ) : trimHi n n 1 = n - 1 := by
  have : ⌈(n : ℚ) - 1⌉ = (n : ℤ) - 1 := by
    rw [show (n : ℚ) - 1 = ((n - 1 : ℤ) : ℚ) by push_cast; ring, Int.ceil_intCast]
  unfold trimHi; rw [this]; omega
theorem trimHi_half (n : ℕ) : trimHi n n (1 / 2) = n := by
  have : ⌈(n : ℚ) - 1 / 2⌉ = (n : ℤ) := by
    rw [Int.ceil_eq_iff]; push_cast; constructor <;> linarith
  unfold trimHi; rw [this]; omega

theorem OnGrid.trimOK {bc : BC d K} {u : GridArray d K} (h : OnGrid bc u) (a : Fin d) :
    TrimOK bc u a := by
  obtain ⟨hs, hN, h | ⟨h1, h2, ho⟩ | ⟨ht, ho⟩⟩ := h a
  · exact Or.inl ⟨h, hs⟩
  · have hNQ : (1 : ℚ) ≤ u.grid.shape a := by exact_mod_cast hN
    refine Or.inr ⟨h1, h2, Or.inr ?_, ?_, ?_, hN, isAligned_center _ _ _ ho hs⟩
    · rw [ho, fract_half]; norm_num
    · rw [ho, hs]; linarith
    · rw [ho]; linarith
  · have hNQ : (1 : ℚ) ≤ u.grid.shape a := by exact_mod_cast hN
    have np : ¬ (BCType.dirichlet = BCType.periodic) := by decide
    have nn : ¬ (BCType.dirichlet = BCType.neumann) := by decide
    refine Or.inr ⟨by rw [ht]; exact np, by rw [ht]; exact np, Or.inl (by rw [ht]), ?_, ?_, hN, ?_⟩
    · rw [hs]; rcases ho with ho | ho <;> rw [ho] <;> linarith
    · rcases ho with ho | ho <;> rw [ho] <;> linarith
    · unfold isAligned
      rcases ho with ho | ho <;> simp [ho, ht, hs]

/-- The layout `trim_boundary` leaves behind is the one `pad_and_impose_bc` expects. -/
theorem OnGrid.padReady {bc : BC d K} {u t : GridArray d K} (h : OnGrid bc u) (hs' : t.shape = axSize bc u)
    (ho' : t.offset = fun a => u.offset a + axLo bc u a) (hg' : t.grid = u.grid) :
    ∀ a ∈ List.finRange d, PadReady bc u.offset t a := by
  have nd : ¬ (BCType.periodic = BCType.dirichlet) := by decide
  obtain ⟨⟨ts, td⟩, tOff, tg⟩ := t
  dsimp only at hs' ho' hg'
  subst hs' ho' hg'
  set t : GridArray d K := ⟨⟨axSize bc u, td⟩, fun a => u.offset a + axLo bc u a, u.grid⟩ with ht
  intro a _
  obtain ⟨hs, hN, h | ⟨h1, h2, ho⟩ | ⟨ht', ho⟩⟩ := h a
  · refine ⟨hN, Or.inl ⟨?_, ?_, ?_, ?_⟩⟩
    · have : t.shape a = t.grid.shape a := by simp [ht, axSize, h, hs]
      unfold isAligned; simp [h, this]
    · simp [ht, axSize, h, hs]
    · simp [ht, axLo, h]
    · rw [h]; exact fun hh => nd hh.1
  · have e1 : t.shape a = t.grid.shape a := by
      simp only [ht, axSize, h1, if_false, ho, hs, trimLo_half, trimHi_half]; omega
    have e2 : t.offset a = u.offset a := by
      simp only [ht, axLo, h1, if_false, ho, trimLo_half]; norm_num
    have e2' : t.offset a = 1 / 2 := by rw [e2, ho]
    refine ⟨hN, Or.inl ⟨isAligned_center _ _ _ e2' e1, e1, e2, ?_⟩⟩
    rintro ⟨-, hh⟩
    rw [ho] at hh; norm_num at hh
  · refine ⟨hN, Or.inr ⟨by rw [ht'], by rw [ht'], ?_, ?_, ho⟩⟩
    · rcases ho with ho | ho
      · simp [ht, axLo, ht', ho, trimLo_zero]
      · simp [ht, axLo, ht', ho, trimLo_one]
    · rcases ho with ho | ho
      · simp [ht, axSize, ht', ho, hs, trimLo_zero, trimHi_zero]
      · simp [ht, axSize, ht', ho, hs, trimLo_one, trimHi_one]

/-- Closed form of `impose_bc`: the value at a wall point is the boundary value of the last axis on whose wall
the point lies. -/
theorem imposeBC_ok (bc : BC d K) (u : GridArray d K) (h : OnGrid bc u) :
    ∃ r, bc.imposeBC u = .ok ⟨r, bc⟩ ∧ r.shape = u.shape ∧ r.offset = u.offset ∧ r.grid = u.grid ∧
      ∀ i, InR u.shape i → r.data i = (List.finRange d).foldl
        (fun acc a => (wallVal bc u.grid.shape u.offset a (i a)).getD acc) (u.data i) := by
  unfold imposeBC
  rw [trimBoundary_ok bc u h.trimOK, Except.bind_ok]
  set t : GridArray d K := ⟨⟨axSize bc u, fun i => u.data fun a => i a + axLo bc u a⟩,
      fun a => u.offset a + axLo bc u a, u.grid⟩ with ht
  have np : ¬ (BCType.dirichlet = BCType.periodic) := by decide
  have nd : ¬ (BCType.periodic = BCType.dirichlet) := by decide
  have hlo : ∀ a, (axLo bc u a : ℤ) = padLo bc u.offset a := by
    intro a
    unfold axLo padLo
    obtain ⟨hs, hN, h | ⟨h1, h2, ho⟩ | ⟨ht, ho⟩⟩ := h a
    · simp [h]
    · rw [if_neg h1, ho, trimLo_half, if_neg (by rintro ⟨-, hh⟩; norm_num at hh)]; rfl
    · rcases ho with ho | ho
      · simp [ht, ho, trimLo_zero]
      · simp [ht, ho, trimLo_one]
  have hready := OnGrid.padReady (t := t) h rfl rfl rfl
  obtain ⟨r, hr, rs, ro, rg, rd⟩ := padFold bc u.offset .extend _ (List.nodup_finRange d) t hready
  refine ⟨r, ?_, ?_, ?_, rg, ?_⟩
  · unfold padAndImposeBC
    simp only [Option.getD_some]
    rw [hr]; rfl
  · rw [rs]; funext a; simp [ht, (h a).1]
  · rw [ro]; simp
  · intro i hi
    rw [rd i (fun a _ => by have := hi a; rw [(h a).1] at this; exact this)]
    congr 1
    simp only [ht, List.mem_finRange, if_true]
    congr 1
    funext a
    rw [hlo]; ring

end BC
end JaxCfd
