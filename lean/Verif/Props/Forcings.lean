import Verif.Model.Forcings
import Verif.Lemmas.FD
import Verif.Lemmas.ArrayUtils
import Verif.Props.Grids
import Verif.Props.FD
import Verif.Props.Pressure
import Mathlib.Tactic.NormNum
import Mathlib.Tactic.Positivity
import Mathlib.Analysis.SpecialFunctions.Trigonometric.Basic

/-!
# C49: forcings
-/

namespace JaxCfd
variable {d : ℕ}

/-- A vector field on the faces of a grid: component `a` has one value per cell, stored on the upper faces of axis `a`. -/
def FaceField (g : Grid d ℝ) (f : Fin d → GridArray d ℝ) : Prop :=
  ∀ a, (f a).grid = g ∧ (f a).shape = g.shape ∧ ∀ b, (f a).offset b = if b = a then 1 else 1 / 2

/-! ## Linear forcings and sums -/

/-- **C49.** `linear_forcing` multiplies every component by the coefficient and keeps its labels. -/
theorem C49_linear (c : ℝ) (v : Fin d → GridVariable d ℝ) :
    ∃ f, linearForcing c v = .ok f ∧ ∀ a, (f a).offset = (v a).array.offset ∧ (f a).grid = (v a).array.grid ∧
      (f a).shape = (v a).array.shape ∧ ∀ i, (f a).data i = c * (v a).array.data i :=
  ⟨_, rfl, fun _ => ⟨rfl, rfl, rfl, fun _ => rfl⟩⟩

/-- **C49.** `no_forcing` is zero, on the points of the velocity. -/
theorem C49_none (v : Fin d → GridVariable d ℝ) :
    ∃ f, noForcing v = .ok f ∧ ∀ a, (f a).offset = (v a).array.offset ∧ (f a).grid = (v a).array.grid ∧
      (f a).shape = (v a).array.shape ∧ ∀ i, (f a).data i = 0 :=
  ⟨_, rfl, fun _ => ⟨rfl, rfl, rfl, fun _ => zero_mul _⟩⟩

theorem seqFin_error_all {α : Type} {n : ℕ} (q : Fin n → Except Err α) (e : Err) (h : ∀ b, q b = .error e ∨ ∃ r, q b = .ok r) (a : Fin n)
    (ha : q a = .error e) : seqFin q = .error e := by
  induction n with
  | zero => exact a.elim0
  | succ n ih =>
    unfold seqFin
    rcases h 0 with h0 | ⟨r, h0⟩
    · rw [h0]; rfl
    · rw [h0, Except.bind_ok]
      obtain ⟨b, rfl⟩ : ∃ b : Fin n, a = b.succ := ⟨a.pred (fun e => by rw [e, h0] at ha; cases ha), by simp⟩
      rw [ih (fun i => q i.succ) (fun c => h c.succ) b ha]
      rfl

theorem foldl_add_sum {α : Type} (l : List α) (f : α → ℝ) (s : ℝ) : l.foldl (fun s w => s + f w) s = s + (l.map f).sum := by
  induction l generalizing s with
  | nil => simp
  | cons a l ih => rw [List.foldl_cons, ih, List.map_cons, List.sum_cons, add_assoc]

theorem sumField_eq_ok {us : List (GridArray d ℝ)} {r : GridArray d ℝ} :
    sumField us = .ok r ↔ us ≠ [] ∧ (∀ w ∈ us, w.offset = r.offset ∧ w.grid = r.grid ∧ w.shape = r.shape) ∧
      r.data = fun i => (us.map fun w => w.data i).sum := by
  cases us with
  | nil => simp [sumField]
  | cons u rest =>
    have hdata : (fun i => (u :: rest).foldl (fun s w => s + w.data i) 0) = fun i => ((u :: rest).map fun w => w.data i).sum := by
      funext i
      rw [foldl_add_sum, zero_add]
    unfold sumField
    dsimp only
    rw [hdata]
    by_cases h1 : ∃ w ∈ rest, w.offset ≠ u.offset ∨ w.grid ≠ u.grid
    · rw [if_pos h1]
      simp only [reduceCtorEq, ne_eq, not_false_eq_true, true_and, false_iff, not_and]
      intro h
      obtain ⟨w, hw, h1⟩ := h1
      have a1 := h u (by simp)
      have a2 := h w (by simp [hw])
      rcases h1 with h1 | h1
      · exact absurd (a2.1.trans a1.1.symm) h1
      · exact absurd (a2.2.1.trans a1.2.1.symm) h1
    · rw [if_neg h1]
      by_cases h2 : ∃ w ∈ rest, w.shape ≠ u.shape
      · rw [if_pos h2]
        simp only [reduceCtorEq, ne_eq, not_false_eq_true, true_and, false_iff, not_and]
        intro h
        obtain ⟨w, hw, h2⟩ := h2
        exact absurd ((h w (by simp [hw])).2.2.trans (h u (by simp)).2.2.symm) h2
      · rw [if_neg h2]
        push Not at h1 h2
        constructor
        · intro h
          injection h with h
          subst h
          refine ⟨by simp, fun w hw => ?_, rfl⟩
          rcases List.mem_cons.1 hw with rfl | hw
          · exact ⟨rfl, rfl, rfl⟩
          · exact ⟨(h1 w hw).1, (h1 w hw).2, h2 w hw⟩
        · rintro ⟨-, h, hd⟩
          have hu := h u (by simp)
          obtain ⟨⟨rs, rd⟩, ro, rg⟩ := r
          dsimp only at hd hu
          rw [hd, hu.1, hu.2.1, hu.2.2]

theorem sumForcings_eq_ok {fs : List (ForcingFn d)} {v : Fin d → GridVariable d ℝ} {r : Fin d → GridArray d ℝ} :
    sumForcings fs v = .ok r ↔ ∃ outs, List.Forall₂ (fun F o => F v = .ok o) fs outs ∧
      ∀ a, sumField (outs.map fun o => o a) = .ok (r a) := by
  unfold sumForcings sumFields
  rw [Except.bind_eq_ok]
  constructor
  · rintro ⟨outs, h1, h2⟩
    exact ⟨outs, (mapM_eq_ok _ _ _).1 h1, (seqFin_eq_ok _ _).1 h2⟩
  · rintro ⟨outs, h1, h2⟩
    exact ⟨outs, (mapM_eq_ok _ _ _).2 h1, (seqFin_eq_ok _ _).2 h2⟩

/-- **C49.** `sum_forcings` returns exactly the componentwise sum, and does so exactly if every forcing succeeds and for every component
all forcings live on the same points. -/
theorem C49_sum (fs : List (ForcingFn d)) (v : Fin d → GridVariable d ℝ) (r : Fin d → GridArray d ℝ) :
    sumForcings fs v = .ok r ↔ ∃ outs : List (Fin d → GridArray d ℝ), List.Forall₂ (fun F o => F v = .ok o) fs outs ∧
      (d = 0 ∨ fs ≠ []) ∧ ∀ a, (∀ o ∈ outs, (o a).offset = (r a).offset ∧ (o a).grid = (r a).grid ∧ (o a).shape = (r a).shape) ∧
        (r a).data = fun i => (outs.map fun o => (o a).data i).sum := by
  rw [sumForcings_eq_ok]
  refine exists_congr fun outs => and_congr_right fun h => ?_
  have hne : outs ≠ [] ↔ fs ≠ [] := by
    have := h.length_eq
    rw [← List.length_pos_iff, ← List.length_pos_iff, this]
  simp only [sumField_eq_ok, List.map_map, List.mem_map, forall_exists_index, and_imp, forall_apply_eq_imp_iff₂,
    Function.comp_def, ne_eq, List.map_eq_nil_iff]
  constructor
  · intro h2
    refine ⟨?_, fun a => (h2 a).2⟩
    by_cases hd : d = 0
    · exact Or.inl hd
    · exact Or.inr (hne.1 (h2 ⟨0, Nat.pos_of_ne_zero hd⟩).1)
  · rintro ⟨h1, h2⟩ a
    refine ⟨?_, h2 a⟩
    rcases h1 with h1 | h1
    · subst h1; exact a.elim0
    · exact hne.2 h1

/-- **C49.** Two forcings on different points are rejected with ValueError. -/
theorem C49_sum_rejects (F G : ForcingFn d) (v : Fin d → GridVariable d ℝ) (f g : Fin d → GridArray d ℝ) (hF : F v = .ok f)
    (hG : G v = .ok g) (hs : ∀ a, (f a).shape = (g a).shape) (a : Fin d)
    (h : (f a).offset ≠ (g a).offset ∨ (f a).grid ≠ (g a).grid) : sumForcings [F, G] v = .error .value := by
  unfold sumForcings sumFields
  have hm : [F, G].mapM (fun f => f v) = .ok [f, g] := (mapM_eq_ok _ _ _).2 (.cons hF (.cons hG .nil))
  rw [hm, Except.bind_ok]
  have key : ∀ b : Fin d, sumField ([f, g].map fun f => f b) = .error .value ∨ ∃ r, sumField ([f, g].map fun f => f b) = .ok r := by
    intro b
    by_cases hb : ∃ w ∈ [g b], w.offset ≠ (f b).offset ∨ w.grid ≠ (f b).grid
    · left
      show sumField [f b, g b] = _
      unfold sumField
      dsimp only
      rw [if_pos hb]
    · right
      show ∃ r, sumField [f b, g b] = _
      unfold sumField
      dsimp only
      rw [if_neg hb, if_neg (by simpa using (hs b).symm)]
      exact ⟨_, rfl⟩
  have hbad : sumField ([f, g].map fun f => f a) = .error .value := by
    show sumField [f a, g a] = _
    unfold sumField
    dsimp only
    rw [if_pos ⟨g a, by simp, by
      rcases h with h | h
      · exact Or.inl (Ne.symm h)
      · exact Or.inr (Ne.symm h)⟩]
  exact seqFin_error_all _ _ key a hbad

/-! ## Kolmogorov forcing -/

theorem cellFaces_apply (g : Grid d ℝ) (a b : Fin d) : g.cellFaces a b = if b = a then 1 else 1 / 2 := by
  unfold Grid.cellFaces
  split_ifs <;> norm_num

theorem mesh_ok (g : Grid d ℝ) (o : Fin d → ℚ) :
    ∃ m, g.mesh (some (List.ofFn fun a => (o a : ℝ))) = .ok m ∧ ∀ n, (m n).shape = g.shape ∧ ∀ i, InR g.shape i →
      (m n).data i = (g.domain n).1 + ((i n : ℝ) + (o n : ℝ)) * g.step n := by
  have hax : g.axes (some (List.ofFn fun a => (o a : ℝ))) = .ok fun a => (List.range (g.shape a)).map fun i : ℕ =>
      (g.domain a).1 + ((i : ℝ) + (List.ofFn fun a => (o a : ℝ)).getD a 0) * g.step a := by
    unfold Grid.axes; simp
  unfold Grid.mesh
  rw [hax, Except.bind_ok]
  refine ⟨_, rfl, fun n => ⟨rfl, fun i hi => ?_⟩⟩
  obtain ⟨h0, h1⟩ := hi n
  obtain ⟨k, hk⟩ := Int.eq_ofNat_of_zero_le h0
  have hk' : k < g.shape n := by omega
  simp [hk, hk']

theorem sineArray_ok (g : Grid d ℝ) (scale k : ℝ) (o : Fin d → ℚ) (along : Fin d) :
    ∃ u, sineArray g scale k o along = .ok u ∧ u.offset = o ∧ u.grid = g ∧ u.shape = g.shape ∧
      ∀ i, InR g.shape i → u.data i = scale * Real.sin (k * coord u along i) := by
  obtain ⟨m, hm, hmd⟩ := mesh_ok g o
  unfold sineArray
  rw [hm, Except.bind_ok]
  refine ⟨_, rfl, rfl, rfl, (hmd along).1, fun i hi => ?_⟩
  show scale * Real.sin (k * (m along).data i) = _
  rw [(hmd along).2 i hi]
  rfl

/-- Which component a Kolmogorov forcing drives, and along which axis it varies. -/
def kolmogorovAxes (d : ℕ) (h : 2 ≤ d) (swap : Bool) : Fin d × Fin d :=
  if swap then (⟨1, by omega⟩, ⟨0, by omega⟩) else (⟨0, by omega⟩, ⟨1, by omega⟩)

/-- **C49.** `kolmogorov_forcing` in two and three dimensions, on the cell faces of the grid: the driven component is
`scale * sin(k * y)` at the points where it is stored, `y` being the transverse coordinate; all others vanish; the velocity is
ignored. -/
theorem C49_kolmogorov (h2 : 2 ≤ d) (h3 : d ≤ 3) (g : Grid d ℝ) (scale k : ℝ) (swap : Bool) :
    ∃ F, kolmogorovForcing g scale k swap none = .ok F ∧ ∃ f, (∀ v, F v = .ok f) ∧ FaceField g f ∧ ∀ a i, InR g.shape i →
      (f a).data i = if a = (kolmogorovAxes d h2 swap).1 then
        scale * Real.sin (k * coord (f a) (kolmogorovAxes d h2 swap).2 i) else 0 := by
  unfold kolmogorovForcing
  rw [dif_neg (by omega)]
  dsimp only
  obtain ⟨u, hu, ho, hg, hs, hd⟩ := sineArray_ok g scale k ((none : Option (Fin d → Fin d → ℚ)).getD g.cellFaces
    ⟨if swap then 1 else 0, by split <;> omega⟩) ⟨if swap then 0 else 1, by split <;> omega⟩
  rw [hu, Except.bind_ok, if_neg (by omega)]
  refine ⟨_, rfl, _, fun v => rfl, fun a => ?_, fun a i hi => ?_⟩
  · beta_reduce
    by_cases ha : a = ⟨if swap then 1 else 0, by split <;> omega⟩
    · rw [if_pos ha]
      refine ⟨hg, hs, fun b => ?_⟩
      rw [ho, Option.getD_none, ← ha, cellFaces_apply]
    · rw [if_neg ha]
      exact ⟨rfl, hs, fun b => cellFaces_apply g a b⟩
  · have e1 : (kolmogorovAxes d h2 swap).1 = ⟨if swap then 1 else 0, by split <;> omega⟩ := by
      cases swap <;> rfl
    have e2 : (kolmogorovAxes d h2 swap).2 = ⟨if swap then 0 else 1, by split <;> omega⟩ := by
      cases swap <;> rfl
    rw [e1, e2]
    beta_reduce
    by_cases ha : a = ⟨if swap then 1 else 0, by split <;> omega⟩
    · rw [if_pos ha, if_pos ha, hd i hi]
    · rw [if_neg ha, if_neg ha]

/-- **C49.** Other ranks are rejected. -/
theorem C49_kolmogorov_rank (g : Grid d ℝ) (scale k : ℝ) (swap : Bool) (o : Option (Fin d → Fin d → ℚ)) (h : d < 2 ∨ 3 < d) :
    kolmogorovForcing g scale k swap o = .error (if d < 2 then .index else .notImplemented) := by
  unfold kolmogorovForcing
  by_cases h2 : d < 2
  · rw [dif_pos h2, if_pos h2]
  · rw [dif_neg h2, if_neg h2]
    dsimp only
    obtain ⟨u, hu, -⟩ := sineArray_ok g scale k (o.getD g.cellFaces ⟨if swap then 1 else 0, by split <;> omega⟩)
      ⟨if swap then 0 else 1, by split <;> omega⟩
    rw [hu, Except.bind_ok, if_pos (by omega)]
    rfl

variable [HasNan ℝ]

theorem FaceField.divergence {g : Grid d ℝ} {f : Fin d → GridArray d ℝ} (h : FaceField g f) (hd : d ≠ 0) (hs : ∀ a, 0 < g.shape a) :
    divergence (List.ofFn fun a => (⟨f a, periodicBC d⟩ : GridVariable d ℝ)) = .ok ⟨⟨g.shape, fun i =>
      ∑ a, ((f a).data i - (f a).data (rollIdx g.shape a (-1) i)) / g.step a⟩, fun _ => 1 / 2, g⟩ := by
  have hp : ∀ a, (⟨f a, periodicBC d⟩ : GridVariable d ℝ).Periodic := fun a =>
    ⟨fun _ => rfl, fun b => ⟨by show (f a).shape b = (f a).grid.shape b; rw [(h a).1, (h a).2.1], by
      show 0 < (f a).grid.shape b; rw [(h a).1]; exact hs b⟩⟩
  refine (divergence_periodic hp).2 ⟨hd, fun a => ⟨(h a).2.1, ?_, (h a).1⟩, ?_⟩
  · funext b
    show Function.update (f a).offset a ((f a).offset a - 1 / 2) b = 1 / 2
    by_cases hb : b = a
    · subst hb
      rw [Function.update_self, (h b).2.2, if_pos rfl]; norm_num
    · rw [Function.update_of_ne hb, (h a).2.2, if_neg hb]
  · funext i
    show (∑ a : Fin d, ((f a).data i - (f a).data (rollIdx g.shape a (-1) i)) / g.step a) = ∑ a : Fin d, _
    refine Finset.sum_congr rfl fun a _ => ?_
    show _ = ((f a).data i - (f a).data (rollIdx (f a).shape a (-1) i)) / (f a).grid.step a
    rw [(h a).1, (h a).2.1]

/-- **C49.** The Kolmogorov forcing is discretely divergence free on a periodic grid, for every wavenumber (also for one that does not
fit the domain). -/
theorem C49_kolmogorov_divergence_free (h2 : 2 ≤ d) (h3 : d ≤ 3) (g : Grid d ℝ) (hs : ∀ a, 0 < g.shape a) (scale k : ℝ) (swap : Bool)
    (v : Fin d → GridVariable d ℝ) :
    ∃ F f, kolmogorovForcing g scale k swap none = .ok F ∧ F v = .ok f ∧
      DivergenceFree g fun a => (⟨f a, periodicBC d⟩ : GridVariable d ℝ) := by
  obtain ⟨F, hF, f, hf, hff, hdat⟩ := C49_kolmogorov h2 h3 g scale k swap
  refine ⟨F, f, hF, hf v, _, hff.divergence (by omega) hs, fun i hi => ?_⟩
  show (∑ a : Fin d, ((f a).data i - (f a).data (rollIdx g.shape a (-1) i)) / g.step a) = 0
  refine Finset.sum_eq_zero fun a _ => ?_
  have hr : InR g.shape (rollIdx g.shape a (-1) i) := by
    exact hi.update a (Int.emod_nonneg _ (by have := hs a; omega)) (Int.emod_lt_of_pos _ (by have := hs a; omega))
  rw [hdat a _ hr, hdat a i hi]
  have hne : (kolmogorovAxes d h2 swap).2 ≠ (kolmogorovAxes d h2 swap).1 := by
    cases swap <;> simp [kolmogorovAxes]
  by_cases ha : a = (kolmogorovAxes d h2 swap).1
  · rw [if_pos ha, if_pos ha]
    have : coord (f a) (kolmogorovAxes d h2 swap).2 (rollIdx g.shape a (-1) i) = coord (f a) (kolmogorovAxes d h2 swap).2 i := by
      unfold coord rollIdx
      rw [Function.update_of_ne (by rw [ha]; exact hne)]
    rw [this, sub_self, zero_div]
  · rw [if_neg ha, if_neg ha, sub_self, zero_div]

end JaxCfd
