import Verif.Lemmas.Boundaries

set_option linter.unusedSectionVars false

namespace JaxCfd
namespace BC
variable {d : ℕ} {K : Type} [Field K] [HasNan K]

theorem isAligned_center (bc : BC d K) (u : GridArray d K) (ax : Fin d)
    (hoff : u.offset ax = 1 / 2) (hs : u.shape ax = u.grid.shape ax) :
    bc.isAligned u ax = .ok () := by
  have e2 : Int.fract (1 / 2 : ℚ) = 1 / 2 := by
    rw [Int.fract_eq_iff]; refine ⟨by norm_num, by norm_num, 0, by norm_num⟩
  unfold isAligned
  simp only [hoff, e2]
  norm_num [hs]

theorem isAligned_face (bc : BC d K) (u : GridArray d K) (ax : Fin d)
    (ht1 : (bc.types ax).1 = .dirichlet) (ht2 : (bc.types ax).2 = .dirichlet)
    (hoff : u.offset ax = 1) (hs : u.grid.shape ax ≤ u.shape ax + 2) :
    bc.isAligned u ax = .ok () := by
  have ne1 : ¬ (BCType.dirichlet = BCType.neumann) := by decide
  unfold isAligned
  simp only [hoff, ht1, ht2, ne1, and_self, if_true, false_and, if_false]
  rw [if_neg (by omega)]

theorem pad_one (bc : BC d K) (u : GridArray d K) (ax : Fin d) (w : ℤ) (mode : Padding)
    (h : bc.isAligned u ax = .ok ()) : bc.pad u (.one w) ax mode = bc.pad1 u w ax mode := by
  unfold pad
  rw [h]
  rfl

theorem fract_half : Int.fract (1 / 2 : ℚ) = 1 / 2 := by
  rw [Int.fract_eq_iff]; refine ⟨by norm_num, by norm_num, 0, by norm_num⟩

theorem padDirichletCenter_mirror (bc : BC d K) (x : NArr d K) (lo hi : ℕ) (ax : Fin d)
    (hn : 0 < x.shape ax) :
    bc.padDirichletCenter x (lo, hi) ax .mirror =
      .ok ⟨Function.update x.shape ax (x.shape ax + lo + hi),
        fun i => 2 * padData x ax lo (.const (bc.constantValues ax).1 (bc.constantValues ax).2) i -
          padData x ax lo .symmetric i⟩ := by
  unfold padDirichletCenter
  simp only [ite_self]
  rw [jnpPad_ok _ _ _ _ (by simp) (by simp) (Or.inl rfl),
    jnpPad_ok _ _ _ _ (by simp) (by simp) (Or.inr hn)]
  simp [Except.bind_ok, Except.pure_eq_ok, NArr.map2]

theorem padDirichletCenter_small (bc : BC d K) (x : NArr d K) (lo hi : ℕ) (ax : Fin d)
    (mode : Padding) (h : lo + hi ≤ 1) :
    bc.padDirichletCenter x (lo, hi) ax mode = bc.padDirichletCenter x (lo, hi) ax .mirror := by
  have : (lo : ℤ) + hi = 1 ∨ (lo : ℤ) + hi = 0 := by omega
  unfold padDirichletCenter
  simp [this]

theorem padDirichletCenter_extend (bc : BC d K) (x : NArr d K) (lo hi : ℕ) (ax : Fin d)
    (hn : 0 < x.shape ax) (h : 1 < lo + hi) :
    bc.padDirichletCenter x (lo, hi) ax .extend =
      .ok ⟨Function.update x.shape ax (x.shape ax + lo + hi),
        fun i => 2 * padData x ax lo (.const (bc.constantValues ax).1 (bc.constantValues ax).2) i -
          padData x ax lo .edge i⟩ := by
  have : ¬ ((lo : ℤ) + hi = 1 ∨ (lo : ℤ) + hi = 0) := by omega
  unfold padDirichletCenter
  simp only [this, if_false]
  rw [jnpPad_ok _ _ _ _ (by simp) (by simp) (Or.inl rfl),
    jnpPad_ok _ _ _ _ (by simp) (by simp) (Or.inr hn)]
  simp [Except.bind_ok, Except.pure_eq_ok, NArr.map2]

theorem padData_const_lo (x : NArr d K) (ax : Fin d) (lo : ℤ) (a b : K) (i : Idx d) (h : i ax < lo) :
    padData x ax lo (.const a b) i = a := by simp [padData, h]

theorem padData_const_hi (x : NArr d K) (ax : Fin d) (lo : ℤ) (a b : K) (i : Idx d)
    (h : lo + x.shape ax ≤ i ax) : padData x ax lo (.const a b) i = b := by
  simp only [padData]
  rw [if_neg (by omega), if_neg (by omega)]

theorem padNeumann_closed (bc : BC d K) (x : NArr d K) (lo hi : ℕ) (width : ℤ) (ax : Fin d)
    (step : K) (mode : Padding) (hn : 0 < x.shape ax) (h : lo + hi ≤ 1) :
    bc.padNeumann x (lo, hi) width ax step mode =
      .ok ⟨Function.update x.shape ax (x.shape ax + lo + hi),
        fun i => padData x ax lo .symmetric i - ((width / max 1 |width| : ℤ) : K) * step *
          (padData x ax lo (.const 0 0) i -
            padData x ax lo (.const (bc.constantValues ax).1 (bc.constantValues ax).2) i)⟩ := by
  have : (lo : ℤ) + hi = 1 ∨ (lo : ℤ) + hi = 0 := by omega
  unfold padNeumann
  simp only [this, if_true, Except.bind_ok]
  rw [jnpPad_ok _ _ _ _ (by simp) (by simp) (Or.inr hn),
    jnpPad_ok _ _ _ _ (by simp) (by simp) (Or.inl rfl),
    jnpPad_ok _ _ _ _ (by simp) (by simp) (Or.inl rfl)]
  simp [Except.bind_ok, Except.pure_eq_ok, NArr.map2]

omit [Field K] [HasNan K] in
theorem edgeIdx_up (n : ℕ) (j : ℤ) (h0 : (n : ℤ) ≤ j) (hn : 0 < n) : edgeIdx n j = n - 1 := by
  unfold edgeIdx; omega

omit [Field K] [HasNan K] in
theorem edgeIdx_neg (n : ℕ) (j : ℤ) (h0 : j < 0) : edgeIdx n j = 0 := by
  unfold edgeIdx; omega

theorem padNeumann_wide (bc : BC d K) (x : NArr d K) (lo hi : ℕ) (width : ℤ) (ax : Fin d)
    (step : K) (mode : Padding) (m : PadMode K) (h : 1 < lo + hi) (hn : 0 < x.shape ax)
    (hm : mode = .mirror ∧ m = .symmetric ∨ mode = .extend ∧ m = .edge) :
    bc.padNeumann x (lo, hi) width ax step mode =
      .ok ⟨Function.update x.shape ax (x.shape ax + lo + hi),
        fun i => padData x ax lo m i - ((width / max 1 |width| : ℤ) : K) * step *
          (padData x ax lo (.const 0 0) i -
            padData x ax lo (.const (bc.constantValues ax).1 (bc.constantValues ax).2) i)⟩ := by
  have : ¬ ((lo : ℤ) + hi = 1 ∨ (lo : ℤ) + hi = 0) := by omega
  unfold padNeumann
  simp only [this, if_false]
  rcases hm with ⟨rfl, rfl⟩ | ⟨rfl, rfl⟩ <;>
  · simp only [Except.bind_ok]
    rw [jnpPad_ok _ _ _ _ (by simp) (by simp) (Or.inr hn),
      jnpPad_ok _ _ _ _ (by simp) (by simp) (Or.inl rfl),
      jnpPad_ok _ _ _ _ (by simp) (by simp) (Or.inl rfl)]
    simp [Except.bind_ok, Except.pure_eq_ok, NArr.map2]

theorem padDirichletEdge_const (bc : BC d K) (x : NArr d K) (lo hi : ℕ) (ax : Fin d)
    (mode : Padding) (h : lo + hi ≤ 1 ∨ mode = .extend) :
    bc.padDirichletEdge x (lo, hi) ax mode =
      .ok ⟨Function.update x.shape ax (x.shape ax + lo + hi),
        padData x ax lo (.const (bc.constantValues ax).1 (bc.constantValues ax).2)⟩ := by
  unfold padDirichletEdge
  have hj := jnpPad_ok x ax ((lo : ℤ), (hi : ℤ))
    (.const (bc.constantValues ax).1 (bc.constantValues ax).2) (by simp) (by simp) (Or.inl rfl)
  by_cases hs : (lo : ℤ) + hi = 1 ∨ (lo : ℤ) + hi = 0
  · simp only [hs, if_true]
    rw [hj]; simp
  · have h1 : (lo : ℤ) + hi > 1 := by omega
    rcases h with h | h
    · omega
    · simp only [hs, if_false, h1, if_true, h]
      rw [hj]; simp

theorem padDirichletEdge_mirror (bc : BC d K) (x : NArr d K) (lo hi : ℕ) (ax : Fin d)
    (h : 1 < lo + hi) (hv : ∀ a, (bc.bcValues a).1 ≠ none ∧ (bc.bcValues a).2 ≠ none)
    (e : NArr d K)
    (he : e = ⟨Function.update x.shape ax
        (x.shape ax + (if 0 < lo then 1 else 0) + (if 0 < hi then 1 else 0)),
      padData x ax (if 0 < lo then 1 else 0) (.const 0 0)⟩) :
    bc.padDirichletEdge x (lo, hi) ax .mirror =
      .ok ⟨Function.update x.shape ax (x.shape ax + lo + hi),
        fun i => 2 * padData x ax lo
            (.const ((bc.constantValues ax).1 / 2) ((bc.constantValues ax).2 / 2)) i -
          padData e ax (if 0 < lo then (lo : ℤ) - 1 else 0) .reflect i⟩ := by
  have hs : ¬ ((lo : ℤ) + hi = 1 ∨ (lo : ℤ) + hi = 0) := by omega
  have h1 : (lo : ℤ) + hi > 1 := by omega
  have hv' : ¬ ∃ a, (bc.bcValues a).1 = none ∨ (bc.bcValues a).2 = none := by
    rintro ⟨a, ha | ha⟩
    · exact (hv a).1 ha
    · exact (hv a).2 ha
  have hlo : ((lo : ℤ) > 0) = (0 < lo) := by simp
  have hhi : ((hi : ℤ) > 0) = (0 < hi) := by simp
  unfold padDirichletEdge
  simp only [hs, if_false, h1, if_true, hv', hlo, hhi]
  rw [jnpPad_ok _ _ _ _ (by dsimp only; split <;> omega) (by dsimp only; split <;> omega) (Or.inl rfl)]
  simp only [Except.bind_ok]
  have he' : e = ⟨Function.update x.shape ax (x.shape ax + (if 0 < lo then (1 : ℤ) else 0).toNat +
      (if 0 < hi then (1 : ℤ) else 0).toNat), padData x ax (if 0 < lo then 1 else 0) (.const 0 0)⟩ := by
    rw [he]; congr 3 <;> split <;> simp
  rw [← he']
  rw [jnpPad_ok _ _ _ _ (by simp) (by simp) (Or.inl rfl)]
  rw [jnpPad_ok e _ _ _ (by dsimp only; split <;> omega) (by dsimp only; split <;> omega)
    (Or.inr (by rw [he]; simp only [Function.update_self]; split <;> split <;> omega))]
  simp [Except.bind_ok, Except.pure_eq_ok, NArr.map2]

end BC
end JaxCfd
