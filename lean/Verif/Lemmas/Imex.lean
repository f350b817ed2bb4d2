import Verif.Lemmas.TimeStepping

/-! Lemmas about the implicit-explicit Runge-Kutta loop: skipped stages are never used. -/

namespace JaxCfd

set_option linter.unusedSectionVars false
variable {K V : Type} [Field K] [DecidableEq K] [AddCommGroup V] [Module K V]

theorem item_eq_ok {α : Type} (l : List α) (k : ℕ) (d : α) (h : k < l.length) : item l k = .ok (l.getD k d) := by
  unfold item
  rw [List.getElem?_eq_getElem h, List.getD_eq_getElem _ _ h]

theorem item_error {α : Type} (l : List α) (k : ℕ) (h : l.length ≤ k) : item l k = .error .index := by
  unfold item
  rw [List.getElem?_eq_none h]

theorem weightedSumOpt_ok (row : List K) (fs : List (Option V)) (v : ℕ → V) (h : fs.length ≤ row.length)
    (hf : ∀ j < fs.length, row.getD j 0 ≠ 0 → fs.getD j none = some (v j)) :
    weightedSumOpt row fs = .ok (∑ j ∈ Finset.range fs.length, row.getD j 0 • v j) := by
  induction fs generalizing row v with
  | nil => cases row <;> simp [weightedSumOpt]
  | cons k ks ih =>
    cases row with
    | nil => simp at h
    | cons c cs =>
      have ih' := ih cs (fun j => v (j + 1)) (by simpa using h) (fun j hj hc => by
        have := hf (j + 1) (by simpa using hj) (by simpa using hc)
        simpa using this)
      rw [List.length_cons, Finset.sum_range_succ']
      by_cases hc : c = 0
      · cases k with
        | none => rw [weightedSumOpt, if_pos hc, ih']; simp [hc]
        | some k => rw [weightedSumOpt, if_pos hc, ih']; simp [hc]
      · have hk : k = some (v 0) := by simpa using hf 0 (by simp) (by simpa using hc)
        subst hk
        rw [weightedSumOpt, if_neg hc, ih']
        simp [pure, Except.pure, bind, Except.bind, add_comm]

theorem anyCol_ok (i : ℕ) (rows : List (List K)) (h : ∀ r ∈ rows, i < r.length) :
    anyCol i rows = .ok (decide (∃ r ∈ rows, r.getD i 0 ≠ 0)) := by
  induction rows with
  | nil => simp [anyCol]
  | cons r rs ih =>
    rw [anyCol, item_eq_ok r i 0 (h r (by simp))]
    simp only [Except.bind_ok]
    by_cases hc : r.getD i 0 = 0
    · rw [if_neg (by simpa using hc), ih (fun r hr => h r (by simp [hr]))]
      simp only [List.mem_cons, exists_eq_or_imp, hc, ne_eq, not_true_eq_false, false_or]
    · rw [if_pos hc]
      simp only [List.mem_cons, exists_eq_or_imp, ne_eq, hc, not_false_eq_true, true_or, decide_true]
      rfl

theorem stageUsed_ok (a : List (List K)) (b : List K) (i : ℕ) (ha : ∀ j, i ≤ j → j < a.length → i < (a.getD j []).length)
    (hb : i < b.length) :
    ∃ used, stageUsed a b i = .ok used ∧ (used = false → b.getD i 0 = 0 ∧ ∀ j, i ≤ j → j < a.length → (a.getD j []).getD i 0 = 0) := by
  have hm : ∀ r ∈ a.drop i, ∃ j, i ≤ j ∧ j < a.length ∧ r = a.getD j [] := by
    intro r hr
    obtain ⟨n, hn, rfl⟩ := List.getElem_of_mem hr
    simp only [List.length_drop] at hn
    refine ⟨i + n, by omega, by omega, ?_⟩
    rw [List.getElem_drop, List.getD_eq_getElem _ _ (by omega)]
  have hm' : ∀ j, i ≤ j → j < a.length → a.getD j [] ∈ a.drop i := by
    intro j h1 h2
    rw [List.getD_eq_getElem _ _ h2]
    rw [List.mem_iff_getElem]
    refine ⟨j - i, by simp; omega, ?_⟩
    rw [List.getElem_drop]
    congr 1
    omega
  unfold stageUsed
  rw [anyCol_ok i _ (fun r hr => by obtain ⟨j, h1, h2, rfl⟩ := hm r hr; exact ha j h1 h2)]
  simp only [Except.bind_ok]
  by_cases hx : ∃ r ∈ a.drop i, r.getD i 0 ≠ 0
  · refine ⟨true, by simp only [hx, decide_true, if_true]; rfl, by simp⟩
  · rw [item_eq_ok b i 0 hb]
    refine ⟨decide (b.getD i 0 ≠ 0), by simp only [hx, decide_false, Bool.false_eq_true, if_false, Except.bind_ok]; rfl, ?_⟩
    intro hu
    refine ⟨by simpa using hu, fun j h1 h2 => ?_⟩
    by_contra hne
    exact hx ⟨_, hm' j h1 h2, hne⟩

/-- The state of the stage loop before stage `i`: evaluated stages hold the right values, skipped ones are never needed again. -/
def ImexInv (t : ImExTableau K) (F G : V → V) (Y : ℕ → V) (i : ℕ) (fg : List (Option V) × List (Option V)) : Prop :=
  fg.1.length = i ∧ fg.2.length = i ∧
  (∀ j < i, fg.1.getD j none = some (F (Y j)) ∨
    (t.bEx.getD j 0 = 0 ∧ ∀ r, j ≤ r → r < t.aEx.length → (t.aEx.getD r []).getD j 0 = 0)) ∧
  (∀ j < i, fg.2.getD j none = some (G (Y j)) ∨
    (t.bIm.getD j 0 = 0 ∧ ∀ r, j ≤ r → r < t.aIm.length → (t.aIm.getD r []).getD j 0 = 0))

theorem imexStage_ok {t : ImExTableau K} {F G : V → V} {Ginv : V → K → V} {dt : K} {y0 : V} {Y : ℕ → V} {i : ℕ}
    {fg : List (Option V) × List (Option V)} (hi : 0 < i) (hE : i - 1 < t.aEx.length) (hI : i - 1 < t.aIm.length)
    (hbE : i < t.bEx.length) (hbI : i < t.bIm.length)
    (hrE : ∀ r < t.aEx.length, r + 1 ≤ (t.aEx.getD r []).length) (hrI : ∀ r < t.aIm.length, r + 2 ≤ (t.aIm.getD r []).length)
    (inv : ImexInv t F G Y i fg)
    (hY : Y i = Ginv (y0 + dt • ∑ j ∈ Finset.range i, (t.aEx.getD (i - 1) []).getD j 0 • F (Y j) +
      dt • ∑ j ∈ Finset.range i, (t.aIm.getD (i - 1) []).getD j 0 • G (Y j)) (dt * (t.aIm.getD (i - 1) []).getD i 0)) :
    ∃ fg', imexStage t F G Ginv dt y0 fg i = .ok fg' ∧ ImexInv t F G Y (i + 1) fg' := by
  obtain ⟨l1, l2, hf, hg⟩ := inv
  have hE' := hrE _ hE
  have hI' := hrI _ hI
  obtain ⟨uF, huF, hF0⟩ := stageUsed_ok t.aEx t.bEx i (fun j h1 h2 => by have := hrE j h2; omega) hbE
  obtain ⟨uG, huG, hG0⟩ := stageUsed_ok t.aIm t.bIm i (fun j h1 h2 => by have := hrI j h2; omega) hbI
  unfold imexStage
  rw [item_eq_ok t.aEx (i - 1) [] hE]
  simp only [Except.bind_ok]
  rw [weightedSumOpt_ok (t.aEx.getD (i - 1) []) fg.1 (fun j => F (Y j)) (by omega) (fun j hj hc => by
    rcases hf j (by omega) with h | h
    · exact h
    · exact absurd (h.2 (i - 1) (by omega) hE) hc)]
  simp only [Except.bind_ok]
  rw [item_eq_ok t.aIm (i - 1) [] hI]
  simp only [Except.bind_ok]
  rw [weightedSumOpt_ok (t.aIm.getD (i - 1) []) fg.2 (fun j => G (Y j)) (by omega) (fun j hj hc => by
    rcases hg j (by omega) with h | h
    · exact h
    · exact absurd (h.2 (i - 1) (by omega) hI) hc)]
  simp only [Except.bind_ok]
  rw [item_eq_ok (t.aIm.getD (i - 1) []) i 0 (by omega), huF, huG]
  simp only [Except.bind_ok, l1, l2, ← hY]
  refine ⟨_, rfl, ?_⟩
  refine ⟨by simp [l1], by simp [l2], ?_, ?_⟩
  · intro j hj
    by_cases hji : j < i
    · rw [List.getD_append _ _ _ _ (by omega)]
      exact hf j hji
    · obtain rfl : j = i := by omega
      rw [List.getD_append_right _ _ _ _ (by omega), l1, Nat.sub_self, List.getD_cons_zero]
      cases uF with
      | true => left; rfl
      | false => right; exact hF0 rfl
  · intro j hj
    by_cases hji : j < i
    · rw [List.getD_append _ _ _ _ (by omega)]
      exact hg j hji
    · obtain rfl : j = i := by omega
      rw [List.getD_append_right _ _ _ _ (by omega), l2, Nat.sub_self, List.getD_cons_zero]
      cases uG with
      | true => left; rfl
      | false => right; exact hG0 rfl

/-- The stage values, by recursion over the stages (`Y j` for `j < n`). -/
def imexStages (t : ImExTableau K) (F G : V → V) (Ginv : V → K → V) (dt : K) (y0 : V) : ℕ → List V
  | 0 => [y0]
  | n + 1 =>
      let ys := imexStages t F G Ginv dt y0 n
      ys ++ [Ginv (y0 + dt • ∑ j ∈ Finset.range (n + 1), (t.aEx.getD n []).getD j 0 • F (ys.getD j 0) +
        dt • ∑ j ∈ Finset.range (n + 1), (t.aIm.getD n []).getD j 0 • G (ys.getD j 0)) (dt * (t.aIm.getD n []).getD (n + 1) 0)]

theorem imexStages_length (t : ImExTableau K) (F G : V → V) (Ginv : V → K → V) (dt : K) (y0 : V) (n : ℕ) :
    (imexStages t F G Ginv dt y0 n).length = n + 1 := by
  induction n with
  | zero => rfl
  | succ n ih => simp [imexStages, ih]

theorem imexStages_stable (t : ImExTableau K) (F G : V → V) (Ginv : V → K → V) (dt : K) (y0 : V) (n m j : ℕ) (hj : j ≤ n)
    (hnm : n ≤ m) :
    (imexStages t F G Ginv dt y0 m).getD j 0 = (imexStages t F G Ginv dt y0 n).getD j 0 := by
  induction m, hnm using Nat.le_induction with
  | base => rfl
  | succ m hm ih =>
    rw [← ih, imexStages, List.getD_append _ _ _ _ (by rw [imexStages_length]; omega)]

/-- There are stage values satisfying the stage equations of the scheme. -/
theorem exists_stages (t : ImExTableau K) (F G : V → V) (Ginv : V → K → V) (dt : K) (y0 : V) :
    ∃ Y : ℕ → V, Y 0 = y0 ∧ ∀ i, 0 < i → Y i = Ginv (y0 + dt • ∑ j ∈ Finset.range i, (t.aEx.getD (i - 1) []).getD j 0 • F (Y j) +
      dt • ∑ j ∈ Finset.range i, (t.aIm.getD (i - 1) []).getD j 0 • G (Y j)) (dt * (t.aIm.getD (i - 1) []).getD i 0) := by
  refine ⟨fun i => (imexStages t F G Ginv dt y0 i).getD i 0, rfl, ?_⟩
  intro i hi
  obtain ⟨n, rfl⟩ : ∃ n, i = n + 1 := ⟨i - 1, by omega⟩
  dsimp only
  rw [imexStages, List.getD_append_right _ _ _ _ (by rw [imexStages_length]), imexStages_length, Nat.sub_self, List.getD_cons_zero]
  have h : ∀ j ∈ Finset.range (n + 1), (imexStages t F G Ginv dt y0 n).getD j 0 = (imexStages t F G Ginv dt y0 j).getD j 0 :=
    fun j hj => imexStages_stable t F G Ginv dt y0 j n j le_rfl (by have := Finset.mem_range.1 hj; omega)
  rw [Nat.add_sub_cancel]
  congr 3
  · congr 1
    exact Finset.sum_congr rfl (fun j hj => by rw [h j hj])
  · exact Finset.sum_congr rfl (fun j hj => by rw [h j hj])

theorem imexFold_ok {t : ImExTableau K} {F G : V → V} {Ginv : V → K → V} {dt : K} {y0 : V} {Y : ℕ → V} (n i : ℕ)
    {fg : List (Option V) × List (Option V)} (hi : 0 < i) (hE : i + n ≤ t.aEx.length + 1) (hI : i + n ≤ t.aIm.length + 1)
    (hbE : i + n ≤ t.bEx.length) (hbI : i + n ≤ t.bIm.length)
    (hrE : ∀ r < t.aEx.length, r + 1 ≤ (t.aEx.getD r []).length) (hrI : ∀ r < t.aIm.length, r + 2 ≤ (t.aIm.getD r []).length)
    (inv : ImexInv t F G Y i fg)
    (hY : ∀ i, 0 < i → Y i = Ginv (y0 + dt • ∑ j ∈ Finset.range i, (t.aEx.getD (i - 1) []).getD j 0 • F (Y j) +
      dt • ∑ j ∈ Finset.range i, (t.aIm.getD (i - 1) []).getD j 0 • G (Y j)) (dt * (t.aIm.getD (i - 1) []).getD i 0)) :
    ∃ fg', (List.range' i n).foldlM (imexStage t F G Ginv dt y0) fg = .ok fg' ∧ ImexInv t F G Y (i + n) fg' := by
  induction n generalizing i fg with
  | zero => exact ⟨fg, rfl, inv⟩
  | succ n ih =>
    obtain ⟨fg1, h1, inv1⟩ := imexStage_ok hi (by omega) (by omega) (by omega) (by omega) hrE hrI inv (hY i hi)
    obtain ⟨fg2, h2, inv2⟩ := ih (i + 1) (by omega) (by omega) (by omega) (by omega) (by omega) inv1
    refine ⟨fg2, ?_, by rw [show i + (n + 1) = i + 1 + n by omega]; exact inv2⟩
    rw [List.range'_succ, List.foldlM_cons, h1]
    exact h2

theorem imexRK_ok {t : ImExTableau K} (F G : V → V) (Ginv : V → K → V) (dt : K) (y0 : V)
    (hE : t.aEx.length + 1 = t.bEx.length) (hI : t.aIm.length + 1 = t.bEx.length) (hb : t.bIm.length = t.bEx.length)
    (hrE : ∀ r < t.aEx.length, r + 1 ≤ (t.aEx.getD r []).length) (hrI : ∀ r < t.aIm.length, r + 2 ≤ (t.aIm.getD r []).length)
    (Y : ℕ → V) (hY0 : Y 0 = y0)
    (hY : ∀ i, 0 < i → Y i = Ginv (y0 + dt • ∑ j ∈ Finset.range i, (t.aEx.getD (i - 1) []).getD j 0 • F (Y j) +
      dt • ∑ j ∈ Finset.range i, (t.aIm.getD (i - 1) []).getD j 0 • G (Y j)) (dt * (t.aIm.getD (i - 1) []).getD i 0)) :
    imexRK t F G Ginv dt y0 = .ok (y0 + dt • ∑ j ∈ Finset.range t.bEx.length, t.bEx.getD j 0 • F (Y j) +
      dt • ∑ j ∈ Finset.range t.bEx.length, t.bIm.getD j 0 • G (Y j)) := by
  have inv0 : ImexInv t F G Y 1 ([some (F y0)], [some (G y0)]) := by
    refine ⟨rfl, rfl, fun j hj => ?_, fun j hj => ?_⟩
    all_goals obtain rfl : j = 0 := by omega
    all_goals left; rw [hY0]; rfl
  obtain ⟨fg, hfold, l1, l2, hf, hg⟩ := imexFold_ok (Ginv := Ginv) (dt := dt) (y0 := y0) (t.bEx.length - 1) 1 (by omega)
    (by omega) (by omega) (by omega) (by omega) hrE hrI inv0 hY
  unfold imexRK
  rw [hfold]
  simp only [Except.bind_ok]
  have e : 1 + (t.bEx.length - 1) = t.bEx.length := by omega
  rw [e] at l1 l2 hf hg
  rw [weightedSumOpt_ok t.bEx fg.1 (fun j => F (Y j)) (by omega) (fun j hj hc => by
    rcases hf j (by omega) with h | h
    · exact h
    · exact absurd h.1 hc)]
  simp only [Except.bind_ok]
  rw [weightedSumOpt_ok t.bIm fg.2 (fun j => G (Y j)) (by omega) (fun j hj hc => by
    rcases hg j (by omega) with h | h
    · exact h
    · exact absurd h.1 hc)]
  simp only [Except.bind_ok, l1, l2]
  rfl

theorem mkImExTableau_eq_ok {aEx aIm : List (List K)} {bEx bIm : List K} {t : ImExTableau K} :
    mkImExTableau aEx aIm bEx bIm = .ok t ↔
      (aEx.length + 1 = bEx.length ∧ aIm.length + 1 = bEx.length ∧ bIm.length = bEx.length) ∧ t = ⟨aEx, aIm, bEx, bIm⟩ := by
  unfold mkImExTableau
  by_cases h : aEx.length + 1 = aIm.length + 1 ∧ aEx.length + 1 = bEx.length ∧ aEx.length + 1 = bIm.length
  · rw [if_pos h]
    constructor
    · intro h'; exact ⟨⟨by omega, by omega, by omega⟩, (Except.ok.inj h').symm⟩
    · rintro ⟨_, rfl⟩; rfl
  · rw [if_neg h]
    constructor
    · intro h'; cases h'
    · rintro ⟨h', _⟩; exact absurd ⟨by omega, by omega, by omega⟩ h

end JaxCfd
