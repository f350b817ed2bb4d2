import Verif.Model.TimeStepping
import Verif.Lemmas.Boundaries
import Mathlib.Algebra.BigOperators.Fin
import Mathlib.Algebra.Module.BigOperators
import Mathlib.Tactic.Module
import Mathlib.Data.List.GetD

/-! Lemmas about the explicit Runge-Kutta loop. -/

namespace JaxCfd

set_option linter.unusedSectionVars false
variable {K V : Type} [Field K] [DecidableEq K] [AddCommGroup V] [Module K V]

theorem weightedSum_cons (c : K) (cs : List K) (k : V) (ks : List V) :
    weightedSum (c :: cs) (k :: ks) = (do let s ← weightedSum cs ks; return c • k + s) := by
  rw [weightedSum]
  cases weightedSum cs ks with
  | error e => rfl
  | ok s =>
    by_cases h : c = 0
    · simp [h]
    · simp [h]

theorem weightedSum_nil (row : List K) : weightedSum row ([] : List V) = .ok 0 := by cases row <;> rfl

theorem weightedSum_ok (row : List K) (ks : List V) (h : ks.length ≤ row.length) :
    weightedSum row ks = .ok (∑ j ∈ Finset.range ks.length, row.getD j 0 • ks.getD j 0) := by
  induction ks generalizing row with
  | nil => cases row <;> simp [weightedSum]
  | cons k ks ih =>
    cases row with
    | nil => simp at h
    | cons c cs =>
      rw [weightedSum_cons, ih cs (by simpa using h), List.length_cons, Finset.sum_range_succ']
      simp [add_comm, pure, Except.pure, bind, Except.bind]

theorem weightedSum_short (row : List K) (ks : List V) (h : row.length < ks.length) :
    weightedSum row ks = .error .index := by
  induction ks generalizing row with
  | nil => simp at h
  | cons k ks ih =>
    cases row with
    | nil => rfl
    | cons c cs =>
      rw [weightedSum_cons, ih cs (by simpa using h)]
      rfl

theorem rkStage_eq_ok {F P : V → Except Err V} {dt : K} {u0 : V} {ks : List V} {row : List K} {ks' : List V}
    (h : ks.length ≤ row.length) :
    rkStage F P dt u0 ks row = .ok ks' ↔ ∃ u k, P (u0 + dt • ∑ j ∈ Finset.range ks.length, row.getD j 0 • ks.getD j 0) = .ok u ∧
      F u = .ok k ∧ ks' = ks ++ [k] := by
  unfold rkStage
  rw [weightedSum_ok row ks h]
  simp only [Except.bind_eq_ok, Except.ok.injEq]
  constructor
  · rintro ⟨_, rfl, u, hu, k, hk, h⟩
    exact ⟨u, k, hu, hk, (Except.ok.inj h).symm⟩
  · rintro ⟨u, k, hu, hk, rfl⟩
    exact ⟨_, rfl, u, hu, k, hk, rfl⟩

theorem rkStages_eq_ok {F P : V → Except Err V} {dt : K} {u0 : V} (rows : List (List K)) (ks ks' : List V)
    (hr : ∀ i < rows.length, ks.length + i ≤ (rows.getD i []).length) :
    rows.foldlM (rkStage F P dt u0) ks = .ok ks' ↔ ks'.length = ks.length + rows.length ∧
      (∀ j < ks.length, ks'.getD j 0 = ks.getD j 0) ∧ ∃ U : ℕ → V, ∀ i < rows.length,
        P (u0 + dt • ∑ j ∈ Finset.range (ks.length + i), (rows.getD i []).getD j 0 • ks'.getD j 0) = .ok (U i) ∧
        F (U i) = .ok (ks'.getD (ks.length + i) 0) := by
  induction rows generalizing ks with
  | nil =>
    simp only [List.foldlM_nil, List.length_nil, Nat.add_zero, Nat.not_lt_zero, false_imp_iff, implies_true, exists_const,
      and_true]
    constructor
    · intro h
      have := Except.ok.inj h
      subst this
      exact ⟨rfl, fun _ _ => rfl⟩
    · rintro ⟨hl, hj⟩
      have : ks = ks' := by
        apply List.ext_getElem hl.symm
        intro j h1 h2
        have := hj j h1
        rw [List.getD_eq_getElem _ _ h1, List.getD_eq_getElem _ _ h2] at this
        exact this.symm
      subst this; rfl
  | cons row rows ih =>
    have h0 : ks.length ≤ row.length := by simpa using hr 0 (by simp)
    rw [List.foldlM_cons, Except.bind_eq_ok]
    constructor
    · rintro ⟨k1, h1, h⟩
      obtain ⟨u, k, hu, hk, rfl⟩ := (rkStage_eq_ok h0).1 h1
      obtain ⟨hl, hj, U, hU⟩ := (ih (ks ++ [k]) (by
        intro i hi
        have := hr (i + 1) (by simpa using hi)
        simp at this ⊢
        omega)).1 h
      have hlen : (ks ++ [k]).length = ks.length + 1 := by simp
      rw [hlen] at hl hj hU
      have hpre : ∀ j < ks.length, ks'.getD j 0 = ks.getD j 0 := by
        intro j hjl
        rw [hj j (by omega), List.getD_append _ _ _ _ hjl]
      refine ⟨by simp [hl]; omega, hpre, fun i => if i = 0 then u else U (i - 1), ?_⟩
      intro i hi
      cases i with
      | zero =>
        simp only [if_true, List.getD_cons_zero, Nat.add_zero]
        rw [Finset.sum_congr rfl (g := fun j => row.getD j 0 • ks.getD j 0) (fun j hjm => by
          rw [hpre j (Finset.mem_range.1 hjm)])]
        refine ⟨hu, ?_⟩
        rw [hj _ (by omega), List.getD_append_right _ _ _ _ le_rfl]
        simpa using hk
      | succ i =>
        have := hU i (by simpa using hi)
        simp only [Nat.succ_ne_zero, if_false, List.getD_cons_succ, Nat.add_sub_cancel]
        rw [show ks.length + (i + 1) = ks.length + 1 + i by omega]
        exact this
    · rintro ⟨hl, hj, U, hU⟩
      have hU0 := hU 0 (by simp)
      simp only [List.getD_cons_zero, Nat.add_zero] at hU0
      refine ⟨ks ++ [ks'.getD ks.length 0], (rkStage_eq_ok h0).2 ⟨U 0, _, ?_, hU0.2, rfl⟩, ?_⟩
      · rw [← hU0.1]
        rw [Finset.sum_congr rfl (g := fun j => row.getD j 0 • ks'.getD j 0)
          (fun j hjm => by rw [hj j (Finset.mem_range.1 hjm)])]
      · apply (ih _ (by
          intro i hi
          have := hr (i + 1) (by simpa using hi)
          simp at this ⊢
          omega)).2
        have hlen : (ks ++ [ks'.getD ks.length 0]).length = ks.length + 1 := by simp
        rw [hlen]
        refine ⟨by rw [hl]; simp; omega, ?_, fun i => U (i + 1), ?_⟩
        · intro j hjl
          by_cases hjk : j < ks.length
          · rw [List.getD_append _ _ _ _ hjk, hj j hjk]
          · obtain rfl : j = ks.length := by omega
            rw [List.getD_append_right _ _ _ _ le_rfl]
            simp
        · intro i hi
          have := hU (i + 1) (by simpa using hi)
          simp only [List.getD_cons_succ] at this
          rw [show ks.length + 1 + i = ks.length + (i + 1) by omega]
          exact this

theorem rkStages_length {F P : V → Except Err V} {dt : K} {u0 : V} (rows : List (List K)) (ks ks' : List V)
    (h : rows.foldlM (rkStage F P dt u0) ks = .ok ks') :
    ks'.length = ks.length + rows.length ∧ ∀ i < rows.length, ks.length + i ≤ (rows.getD i []).length := by
  induction rows generalizing ks with
  | nil =>
    rw [List.foldlM_nil] at h
    have := Except.ok.inj h
    subst this
    simp
  | cons row rows ih =>
    rw [List.foldlM_cons, Except.bind_eq_ok] at h
    obtain ⟨k1, h1, h⟩ := h
    have hrow : ks.length ≤ row.length := by
      by_contra hc
      unfold rkStage at h1
      rw [weightedSum_short row ks (by omega)] at h1
      simp [bind, Except.bind] at h1
    obtain ⟨u, k, _, _, rfl⟩ := (rkStage_eq_ok hrow).1 h1
    obtain ⟨hl, hr⟩ := ih _ h
    simp only [List.length_append, List.length_cons, List.length_nil, Nat.zero_add] at hl hr ⊢
    refine ⟨by omega, ?_⟩
    intro i hi
    cases i with
    | zero => simpa using hrow
    | succ i =>
      rw [List.getD_cons_succ]
      have := hr i (by omega)
      omega

theorem mkTableau_eq_ok {a : List (List K)} {b : List K} {t : Tableau K} :
    mkTableau a b = .ok t ↔ a.length + 1 = b.length ∧ t = ⟨a, b⟩ := by
  unfold mkTableau
  by_cases h : a.length + 1 = b.length
  · simp only [h, ne_eq, not_true_eq_false, if_false, Except.ok.injEq, true_and]
    exact eq_comm
  · simp [h]

end JaxCfd
