import Verif.SpecTime
import Verif.Lemmas.Imex
import Mathlib.Analysis.InnerProductSpace.Basic
import Mathlib.Analysis.Complex.Norm
import Mathlib.Tactic.Linarith
import Mathlib.Tactic.LinearCombination
import Mathlib.Tactic.NormNum
import Mathlib.Tactic.FieldSimp

/-! # C39: implicit-explicit time steppers -/

namespace JaxCfd

set_option linter.unusedSectionVars false
variable {K V : Type} [Field K] [DecidableEq K] [AddCommGroup V] [Module K V]

/-- **C39** `imex_runge_kutta` returns a step of the textbook implicit-explicit Runge-Kutta method with the coefficients of the
tableau, for every tableau with complete rows, all right-hand sides and every implicit solver that is correct for the step sizes of
the stages (`dt` times the diagonal coefficients).  It never fails: although
the code leaves some stage slopes unevaluated (`None`), none of them is used. -/
theorem C39_textbook {aEx aIm : List (List K)} {bEx bIm : List K} {t : ImExTableau K}
    (ht : mkImExTableau aEx aIm bEx bIm = .ok t)
    (hrE : ∀ i < aEx.length, i + 1 ≤ (aEx.getD i []).length) (hrI : ∀ i < aIm.length, i + 2 ≤ (aIm.getD i []).length)
    (F G : V → V) (Ginv : V → K → V) (dt : K)
    (hG : ∀ i, 0 < i → i < bEx.length → Spec.SolvesImplicit G Ginv (dt * (aIm.getD (i - 1) []).getD i 0)) (y0 : V) :
    ∃ r, imexRK t F G Ginv dt y0 = .ok r ∧
      Spec.IsIMEXStep bEx.length (fun i j => (aEx.getD (i - 1) []).getD j 0) (fun i j => (aIm.getD (i - 1) []).getD j 0)
        (fun j => bEx.getD j 0) (fun j => bIm.getD j 0) F G dt y0 r := by
  obtain ⟨⟨hE, hI, hb⟩, rfl⟩ := mkImExTableau_eq_ok.1 ht
  obtain ⟨Y, hY0, hY⟩ := exists_stages ⟨aEx, aIm, bEx, bIm⟩ F G Ginv dt y0
  refine ⟨_, imexRK_ok F G Ginv dt y0 hE hI hb hrE hrI Y hY0 hY, Y, hY0, ?_, rfl⟩
  intro i hi hs
  have h := hG i hi hs (y0 + dt • ∑ j ∈ Finset.range i, (aEx.getD (i - 1) []).getD j 0 • F (Y j) +
      dt • ∑ j ∈ Finset.range i, (aIm.getD (i - 1) []).getD j 0 • G (Y j))
  rw [← hY i hi] at h
  rw [Finset.sum_range_succ, smul_add, ← add_assoc, ← h, smul_smul]
  abel

/-- **C39** Conversely, if in addition implicit equations have only one solution, the textbook step is the one returned. -/
theorem C39_textbook_unique {aEx aIm : List (List K)} {bEx bIm : List K} {t : ImExTableau K}
    (ht : mkImExTableau aEx aIm bEx bIm = .ok t)
    (hrE : ∀ i < aEx.length, i + 1 ≤ (aEx.getD i []).length) (hrI : ∀ i < aIm.length, i + 2 ≤ (aIm.getD i []).length)
    (F G : V → V) (Ginv : V → K → V) (dt : K)
    (hG : ∀ i, 0 < i → i < bEx.length → Spec.UniqueImplicit G Ginv (dt * (aIm.getD (i - 1) []).getD i 0)) (y0 r : V)
    (h : Spec.IsIMEXStep bEx.length (fun i j => (aEx.getD (i - 1) []).getD j 0) (fun i j => (aIm.getD (i - 1) []).getD j 0)
        (fun j => bEx.getD j 0) (fun j => bIm.getD j 0) F G dt y0 r) : imexRK t F G Ginv dt y0 = .ok r := by
  obtain ⟨⟨hE, hI, hb⟩, rfl⟩ := mkImExTableau_eq_ok.1 ht
  obtain ⟨Z, hZ0, hZ, rfl⟩ := h
  obtain ⟨Y, hY0, hY⟩ := exists_stages ⟨aEx, aIm, bEx, bIm⟩ F G Ginv dt y0
  have key : ∀ i, i < bEx.length → Y i = Z i := by
    intro i
    induction i using Nat.strong_induction_on with
    | _ i ih =>
      intro hi
      by_cases h0 : i = 0
      · rw [h0, hY0, hZ0]
      · rw [hY i (by omega)]
        have e1 : ∑ j ∈ Finset.range i, (aEx.getD (i - 1) []).getD j 0 • F (Y j) =
            ∑ j ∈ Finset.range i, (aEx.getD (i - 1) []).getD j 0 • F (Z j) := Finset.sum_congr rfl (fun j hj => by
          have := Finset.mem_range.1 hj
          rw [ih j (by omega) (by omega)])
        have e2 : ∑ j ∈ Finset.range i, (aIm.getD (i - 1) []).getD j 0 • G (Y j) =
            ∑ j ∈ Finset.range i, (aIm.getD (i - 1) []).getD j 0 • G (Z j) := Finset.sum_congr rfl (fun j hj => by
          have := Finset.mem_range.1 hj
          rw [ih j (by omega) (by omega)])
        dsimp only
        rw [e1, e2]
        refine Eq.trans ?_ (hG i (by omega) hi (Z i))
        congr 1
        rw [eq_sub_iff_add_eq]
        conv_rhs => rw [hZ i (by omega) hi]
        rw [Finset.sum_range_succ, smul_add, ← add_assoc, smul_smul]
  rw [imexRK_ok F G Ginv dt y0 hE hI hb hrE hrI Y hY0 hY]
  congr 1
  have e1 : ∑ j ∈ Finset.range bEx.length, bEx.getD j 0 • F (Y j) = ∑ j ∈ Finset.range bEx.length, bEx.getD j 0 • F (Z j) :=
    Finset.sum_congr rfl (fun j hj => by rw [key j (Finset.mem_range.1 hj)])
  have e2 : ∑ j ∈ Finset.range bEx.length, bIm.getD j 0 • G (Y j) = ∑ j ∈ Finset.range bEx.length, bIm.getD j 0 • G (Z j) :=
    Finset.sum_congr rfl (fun j hj => by rw [key j (Finset.mem_range.1 hj)])
  dsimp only
  rw [e1, e2]

/-- **C39** Tableaux with inconsistent lengths are rejected. -/
theorem C39_inconsistent_tableau (aEx aIm : List (List K)) (bEx bIm : List K) :
    mkImExTableau aEx aIm bEx bIm = .error .value ↔
      ¬ (aEx.length = aIm.length ∧ bEx.length = aEx.length + 1 ∧ bIm.length = aEx.length + 1) := by
  unfold mkImExTableau
  by_cases h : aEx.length + 1 = aIm.length + 1 ∧ aEx.length + 1 = bEx.length ∧ aEx.length + 1 = bIm.length
  · rw [if_pos h]
    simp only [reduceCtorEq, false_iff, not_not]
    omega
  · rw [if_neg h]
    simp only [true_iff]
    omega

/-- **C39** `backward_forward_euler`: `u₁ - dt G(u₁) = u₀ + dt F(u₀)`. -/
theorem C39_backward_forward_euler (F G : V → V) (Ginv : V → K → V) (dt : K) (hG : Spec.SolvesImplicit G Ginv dt) (u0 : V) :
    backwardForwardEuler F Ginv dt u0 = u0 + dt • F u0 + dt • G (backwardForwardEuler F Ginv dt u0) := by
  have := hG (u0 + dt • F u0)
  unfold backwardForwardEuler
  rw [sub_eq_iff_eq_add] at this
  exact this

/-- **C39** `crank_nicolson_rk2`: the result is the Crank-Nicolson step in `G` with the Heun average of `F`. -/
theorem C39_crank_nicolson_rk2 (F G : V → V) (Ginv : V → K → V) (dt : K) (hG' : Spec.SolvesImplicit G Ginv (dt / 2)) (u0 : V) :
    ∃ u1, u1 = u0 + dt • F u0 + (dt / 2) • (G u0 + G u1) ∧
      crankNicolsonRK2 F G Ginv dt u0 = u0 + (dt / 2) • (F u0 + F u1) +
        (dt / 2) • (G u0 + G (crankNicolsonRK2 F G Ginv dt u0)) := by
  have hG : Spec.SolvesImplicit G Ginv (1 / 2 * dt) := by rwa [one_div_mul_eq_div]
  have h1 : Ginv (u0 + (1 / 2 * dt) • G u0 + dt • F u0) (1 / 2 * dt) = _ :=
    sub_eq_iff_eq_add.1 (hG (u0 + (1 / 2 * dt) • G u0 + dt • F u0))
  have h2 : crankNicolsonRK2 F G Ginv dt u0 = u0 + (1 / 2 * dt) • G u0 +
      dt • ((1 / 2 : K) • (F (Ginv (u0 + (1 / 2 * dt) • G u0 + dt • F u0) (1 / 2 * dt)) + F u0)) +
      (1 / 2 * dt) • G (crankNicolsonRK2 F G Ginv dt u0) := sub_eq_iff_eq_add.1 (hG _)
  refine ⟨Ginv (u0 + (1 / 2 * dt) • G u0 + dt • F u0) (1 / 2 * dt), ?_, ?_⟩
  · generalize Ginv (u0 + (1 / 2 * dt) • G u0 + dt • F u0) (1 / 2 * dt) = u1 at h1 ⊢
    refine h1.trans ?_
    module
  · generalize Ginv (u0 + (1 / 2 * dt) • G u0 + dt • F u0) (1 / 2 * dt) = u1 at h2 ⊢
    generalize crankNicolsonRK2 F G Ginv dt u0 = r at h2 ⊢
    refine h2.trans ?_
    module

/-- One stage of the low-storage scheme. -/
theorem lowStorageStage_ok (α β γ : List K) (F G : V → V) (Ginv : V → K → V) (dt : K) (hu : V × V) (k : ℕ)
    (ha : k + 1 < α.length) (hb : k < β.length) (hc : k < γ.length) :
    lowStorageStage α β γ F G Ginv dt hu k = .ok (F hu.2 + β.getD k 0 • hu.1,
      Ginv (hu.2 + (γ.getD k 0 * dt) • (F hu.2 + β.getD k 0 • hu.1) + (1 / 2 * dt * (α.getD (k + 1) 0 - α.getD k 0)) • G hu.2)
        (1 / 2 * dt * (α.getD (k + 1) 0 - α.getD k 0))) := by
  unfold lowStorageStage
  rw [item_eq_ok β k 0 hb, item_eq_ok α (k + 1) 0 ha, item_eq_ok α k 0 (by omega), item_eq_ok γ k 0 hc]
  rfl

/-- **C39** `low_storage_runge_kutta_crank_nicolson` with matching coefficient lists: there are stage values `u k` and slopes `h k`
with `h k = F(u k) + β_k h_(k-1)` and every stage is a Crank-Nicolson step in `G` over the fraction `α_(k+1) - α_k` of the time
step; the result is the last stage. -/
theorem C39_low_storage (α β γ : List K) (ha : α.length = β.length + 1) (hc : γ.length = β.length)
    (F G : V → V) (Ginv : V → K → V) (dt : K) (hG : ∀ k < β.length, Spec.SolvesImplicit G Ginv (dt * (α.getD (k + 1) 0 - α.getD k 0) / 2)) (u0 : V) :
    ∃ u h : ℕ → V, u 0 = u0 ∧ lowStorageRKCN α β γ F G Ginv dt u0 = .ok (u β.length) ∧
      (0 < β.length → h 0 = F u0) ∧ (∀ k, k + 1 < β.length → h (k + 1) = F (u (k + 1)) + β.getD (k + 1) 0 • h k) ∧
      ∀ k < β.length, u (k + 1) = u k + (γ.getD k 0 * dt) • h k +
        (dt * (α.getD (k + 1) 0 - α.getD k 0) / 2) • (G (u k) + G (u (k + 1))) := by
  let st : ℕ → V × V := fun n => Nat.rec (0, u0) (fun k hu => (F hu.2 + β.getD k 0 • hu.1,
      Ginv (hu.2 + (γ.getD k 0 * dt) • (F hu.2 + β.getD k 0 • hu.1) + (1 / 2 * dt * (α.getD (k + 1) 0 - α.getD k 0)) • G hu.2)
        (1 / 2 * dt * (α.getD (k + 1) 0 - α.getD k 0)))) n
  have hfold : ∀ n ≤ β.length, (List.range n).foldlM (lowStorageStage α β γ F G Ginv dt) (0, u0) = .ok (st n) := by
    intro n
    induction n with
    | zero => intro _; rfl
    | succ n ih =>
      intro hn
      rw [List.range_succ, List.foldlM_append, ih (by omega)]
      simp only [Except.bind_ok, List.foldlM_cons, List.foldlM_nil]
      rw [lowStorageStage_ok α β γ F G Ginv dt (st n) n (by omega) (by omega) (by omega)]
      rfl
  refine ⟨fun n => (st n).2, fun n => (st (n + 1)).1, rfl, ?_, ?_, ?_, ?_⟩
  · unfold lowStorageRKCN
    rw [if_neg (by omega), hfold _ le_rfl]
    rfl
  · intro _
    show F u0 + β.getD 0 0 • (0 : V) = F u0
    simp
  · intro k hk
    rfl
  · intro k hk
    have em : 1 / 2 * dt * (α.getD (k + 1) 0 - α.getD k 0) = dt * (α.getD (k + 1) 0 - α.getD k 0) / 2 := by ring
    have h := hG k hk ((st k).2 + (γ.getD k 0 * dt) • (st (k + 1)).1 + (1 / 2 * dt * (α.getD (k + 1) 0 - α.getD k 0)) • G (st k).2)
    rw [← em] at h ⊢
    have e : Ginv ((st k).2 + (γ.getD k 0 * dt) • (st (k + 1)).1 + (1 / 2 * dt * (α.getD (k + 1) 0 - α.getD k 0)) • G (st k).2)
        (1 / 2 * dt * (α.getD (k + 1) 0 - α.getD k 0)) = (st (k + 1)).2 := rfl
    rw [e, sub_eq_iff_eq_add] at h
    refine h.trans ?_
    module

/-- **C39** The length check of `low_storage_runge_kutta_crank_nicolson` is a chained comparison: with `n + 1` alphas and `n` betas
the number of gammas is never checked.  Superfluous gammas are silently ignored, and with too few of them the step fails with an
IndexError instead of the intended ValueError.  Symmetrically for the alphas when betas and gammas match. -/
theorem C39_length_check_defect (α β γ extra : List K) (F G : V → V) (Ginv : V → K → V) (dt : K) (u : V) :
    (α.length = β.length + 1 → γ.length = β.length →
      lowStorageRKCN α β (γ ++ extra) F G Ginv dt u = lowStorageRKCN α β γ F G Ginv dt u) ∧
    (α.length = β.length + 1 → γ.length < β.length → lowStorageRKCN α β γ F G Ginv dt u = .error .index) ∧
    (γ.length = β.length → 0 < α.length → α.length < β.length + 1 → lowStorageRKCN α β γ F G Ginv dt u = .error .index) ∧
    (lowStorageRKCN α β γ F G Ginv dt u = .error .value ↔ α.length ≠ β.length + 1 ∧ β.length ≠ γ.length) := by
  have stage_err : ∀ (α β γ : List K) (s : V × V) (k : ℕ) (e : Err),
      lowStorageStage α β γ F G Ginv dt s k = .error e → e = .index := by
    intro α β γ s k e h
    have hi : ∀ (l : List K) (j : ℕ), item l j = .error .index ∨ ∃ x, item l j = .ok x := by
      intro l j
      by_cases hj : j < l.length
      · exact Or.inr ⟨_, item_eq_ok l j 0 hj⟩
      · exact Or.inl (item_error l j (by omega))
    unfold lowStorageStage at h
    rcases hi β k with h1 | ⟨b, h1⟩ <;> rw [h1] at h
    · exact (Except.error.inj h).symm
    simp only [Except.bind_ok] at h
    rcases hi α (k + 1) with h1 | ⟨b, h1⟩ <;> rw [h1] at h
    · exact (Except.error.inj h).symm
    simp only [Except.bind_ok] at h
    rcases hi α k with h1 | ⟨b, h1⟩ <;> rw [h1] at h
    · exact (Except.error.inj h).symm
    simp only [Except.bind_ok] at h
    rcases hi γ k with h1 | ⟨b, h1⟩ <;> rw [h1] at h
    · exact (Except.error.inj h).symm
    · cases h
  have fold_err : ∀ (α β γ : List K) (l : List ℕ) (s : V × V) (e : Err),
      l.foldlM (lowStorageStage α β γ F G Ginv dt) s = .error e → e = .index := by
    intro α β γ l
    induction l with
    | nil => intro s e h; cases h
    | cons k l ih =>
      intro s e h
      rw [List.foldlM_cons] at h
      cases hs : lowStorageStage α β γ F G Ginv dt s k with
      | error e' =>
        rw [hs] at h
        have := Except.error.inj h
        subst this
        exact stage_err _ _ _ _ _ _ hs
      | ok s' =>
        rw [hs] at h
        exact ih _ _ h
  have fold_ok : ∀ (α β γ : List K) (l : List ℕ) (s r : V × V),
      l.foldlM (lowStorageStage α β γ F G Ginv dt) s = .ok r → ∀ k ∈ l, k + 1 < α.length ∧ k < γ.length := by
    intro α β γ l
    induction l with
    | nil => intro s r h k hk; cases hk
    | cons k l ih =>
      intro s r h
      rw [List.foldlM_cons, Except.bind_eq_ok] at h
      obtain ⟨s', hs, h⟩ := h
      intro j hj
      rcases List.mem_cons.1 hj with rfl | hj
      · unfold lowStorageStage at hs
        simp only [Except.bind_eq_ok] at hs
        obtain ⟨_, _, a1, ha1, a0, ha0, c, hc, _⟩ := hs
        constructor
        · by_contra hn
          rw [item_error α (j + 1) (by omega)] at ha1
          cases ha1
        · by_contra hn
          rw [item_error γ j (by omega)] at hc
          cases hc
      · exact ih _ _ h j hj
  have short : ∀ (α β γ : List K), ¬ ((α.length : ℤ) - 1 ≠ β.length ∧ β.length ≠ γ.length) →
      (∃ k < β.length, α.length ≤ k + 1 ∨ γ.length ≤ k) → lowStorageRKCN α β γ F G Ginv dt u = .error .index := by
    intro α β γ hck hk
    unfold lowStorageRKCN
    rw [if_neg hck]
    cases hf : (List.range β.length).foldlM (lowStorageStage α β γ F G Ginv dt) (0, u) with
    | error e => rw [fold_err _ _ _ _ _ _ hf]; rfl
    | ok r =>
      obtain ⟨k, hk, h⟩ := hk
      have := fold_ok _ _ _ _ _ _ hf k (List.mem_range.2 hk)
      omega
  refine ⟨?_, ?_, ?_, ?_⟩
  · intro ha hc
    unfold lowStorageRKCN
    rw [if_neg (by omega), if_neg (by omega)]
    have : ∀ (l : List ℕ) (s : V × V), (∀ k ∈ l, k < β.length) →
        l.foldlM (lowStorageStage α β (γ ++ extra) F G Ginv dt) s = l.foldlM (lowStorageStage α β γ F G Ginv dt) s := by
      intro l
      induction l with
      | nil => intro s _; rfl
      | cons k l ih =>
        intro s hl
        have hk := hl k (by simp)
        rw [List.foldlM_cons, List.foldlM_cons, lowStorageStage_ok α β γ F G Ginv dt s k (by omega) hk (by omega),
          lowStorageStage_ok α β (γ ++ extra) F G Ginv dt s k (by omega) hk (by simp; omega),
          List.getD_append _ _ _ _ (by omega)]
        exact ih _ (fun k hk => hl k (by simp [hk]))
    rw [this _ _ (fun k hk => List.mem_range.1 hk)]
  · intro ha hc
    exact short α β γ (by omega) ⟨γ.length, hc, Or.inr le_rfl⟩
  · intro hc ha hb
    exact short α β γ (by omega) ⟨α.length - 1, by omega, Or.inl (by omega)⟩
  · by_cases hck : (α.length : ℤ) - 1 ≠ β.length ∧ β.length ≠ γ.length
    · unfold lowStorageRKCN
      rw [if_pos hck]
      simp only [true_iff]
      omega
    · constructor
      · intro h
        unfold lowStorageRKCN at h
        rw [if_neg hck] at h
        cases hf : (List.range β.length).foldlM (lowStorageStage α β γ F G Ginv dt) (0, u) with
        | error e =>
          rw [hf] at h
          have h2 := fold_err _ _ _ _ _ _ hf
          rw [h2] at h
          cases h
        | ok r => rw [hf] at h; cases h
      · intro h; exact absurd ⟨by omega, h.2⟩ hck

end JaxCfd
