import Verif.SpecSmooth
import Verif.Props.Accuracy
import Verif.Props.AccuracyExamples
import Verif.Props.WallStep

/-!
# C73: accuracy between walls
-/

namespace JaxCfd
variable {d : ℕ}

theorem position_move (g : Grid d ℝ) (o : Fin d → ℚ) (i : Idx d) (a : Fin d) (x : ℤ) :
    g.position o (Function.update i a x) = Function.update (g.position o i) a ((g.domain a).1 + ((x : ℝ) + (o a : ℝ)) * g.step a) := by
  funext b
  unfold Grid.position
  by_cases hb : b = a
  · subst hb
    rw [Function.update_self, Function.update_self]
  · rw [Function.update_of_ne hb, Function.update_of_ne hb]

theorem dirichlet_ghost_bound {φ : ℝ → ℝ} (hφ : ContDiff ℝ (2 : ℕ) φ) {M : ℝ} (hM : ∀ t, |iteratedDeriv 2 φ t| ≤ M) (w h : ℝ) :
    |2 * φ w - φ (w - h / 2) - φ (w + h / 2)| ≤ h ^ 2 * (M / 4) := by
  have := second_difference_bound hφ hM w (h / 2)
  rw [← abs_neg]
  convert this using 1
  · congr 1; ring
  · ring

theorem neumann_ghost_bound {φ : ℝ → ℝ} (hφ : ContDiff ℝ (3 : ℕ) φ) {M : ℝ} (hM : ∀ t, |iteratedDeriv 3 φ t| ≤ M) (w : ℝ) {h : ℝ} (hh : 0 < h) :
    |φ (w + h / 2) - φ (w - h / 2) - h * iteratedDeriv 1 φ w| ≤ h ^ 2 * (M * h / 24) := by
  have h1 := half_bound hφ hM w hh
  have e : φ (w + h / 2) - φ (w - h / 2) - h * iteratedDeriv 1 φ w = h * ((φ (w + h / 2) - φ (w - h / 2)) / h - iteratedDeriv 1 φ w) := by field_simp
  rw [e, abs_mul, abs_of_pos hh]
  calc h * _ ≤ h * (M * h ^ 2 / 24) := mul_le_mul_of_nonneg_left h1 hh.le
    _ = _ := by ring

section
variable [HasNan ℝ] {u : GridVariable d ℝ} {f : (Fin d → ℝ) → ℝ}

omit [HasNan ℝ] in
theorem wallError_nonneg {M2 M3 h : ℝ} (h2 : 0 ≤ M2) (h3 : 0 ≤ M3) (hh : 0 ≤ h) : ∀ t : BCType, 0 ≤ t.wallError M2 M3 h
  | .dirichlet => by show 0 ≤ M2 / 4; positivity
  | .neumann => by show 0 ≤ M3 * h / 24; positivity
  | .periodic => le_rfl
  | .invalid => le_rfl

/-- The part of the wall error of the upper wall. -/
noncomputable def GridVariable.upperError (u : GridVariable d ℝ) (a : Fin d) (M2 M3 : ℝ) (i : Idx d) : ℝ :=
  if i a + 1 = u.array.shape a ∧ u.array.offset a = 1 / 2 then (u.bc.types a).2.wallError M2 M3 (u.array.grid.step a) else 0

/-- The part of the lower wall. -/
noncomputable def GridVariable.lowerError (u : GridVariable d ℝ) (a : Fin d) (M2 M3 : ℝ) (i : Idx d) : ℝ :=
  if i a = 0 ∧ u.array.offset a = 1 / 2 then (u.bc.types a).1.wallError M2 M3 (u.array.grid.step a) else 0

omit [HasNan ℝ] in
theorem upper_end {g : Grid d ℝ} (hg : g.Valid) (a : Fin d) : (g.domain a).2 = (g.domain a).1 + g.step a * g.shape a := by rw [hg.step_mul]; ring

/-- The value above a cell is the value of the function one cell above, up to the wall error. -/
theorem above_close (hu : u.Supported) (hg : u.array.grid.Valid) (hf : u.bc.Obeys u.array.grid f) (hs : u.array.Samples f) (a : Fin d) (M2 M3 : ℝ) (h2 : SmoothAlong 2 a M2 f) (h3 : SmoothAlong 3 a M3 f)
    {i : Idx d} (hi : InR u.array.shape i) (hin : i a < u.interior a) :
    |u.above a i - f (Function.update (u.array.grid.position u.array.offset i) a (u.array.grid.position u.array.offset i a + u.array.grid.step a))| ≤ u.array.grid.step a ^ 2 * u.upperError a M2 M3 i := by
  set g := u.array.grid with hgd
  set o := u.array.offset with hod
  set p := g.position o i with hp
  have hpa : p a = (g.domain a).1 + ((i a : ℝ) + (o a : ℝ)) * g.step a := rfl
  have hia := hi a
  have hsa := (hu a).1
  have hM2 : 0 ≤ M2 := (abs_nonneg _).trans (h2.2 p)
  have hM3 : 0 ≤ M3 := (abs_nonneg _).trans (h3.2 p)
  have hstep := hg.step_pos a
  have hue : 0 ≤ g.step a ^ 2 * u.upperError a M2 M3 i := by
    unfold GridVariable.upperError
    refine mul_nonneg (by positivity) ?_
    split_ifs
    · exact wallError_nonneg hM2 hM3 hstep.le _
    · exact le_rfl
  have hmove : ∀ x : ℤ, 0 ≤ x → x < u.array.shape a → u.array.data (Function.update i a x) = f (Function.update p a ((g.domain a).1 + ((x : ℝ) + (o a : ℝ)) * g.step a)) := fun x h0 h1 => by
    rw [hs _ (hi.update a h0 h1), position_move]
  have exact' : ∀ {x y : ℝ}, x = y → |x - y| ≤ g.step a ^ 2 * u.upperError a M2 M3 i := fun e => by rw [e, sub_self, abs_zero]; exact hue
  have hend := upper_end hg a
  have hn : ((g.shape a : ℕ) : ℝ) = u.array.shape a := by rw [hsa]
  unfold GridVariable.above
  by_cases hl : i a + 1 < u.array.shape a ∧ (u.bc.types a = (.periodic, .periodic) ∨ o a = 1 / 2 ∨ i a + 2 < u.array.shape a)
  · refine exact' ?_
    have e : u.array.data (Function.update i a (i a + 1)) = f (Function.update p a (p a + g.step a)) := by
      rw [hmove _ (by omega) hl.1, hpa]
      congr 2
      push_cast
      ring
    rw [← e]
    have er : rollIdx u.array.shape a 1 i = Function.update i a (i a + 1) := by
      unfold rollIdx
      rw [Int.emod_eq_of_lt (by omega) hl.1]
    rw [er]
    split_ifs with c1 c2 c4
    · rfl
    · rfl
    · exact absurd hl.1 ‹_›
    · exact absurd hl.1 ‹_›
    · rfl
    · rcases hl.2 with e1 | e1 | e1
      · rw [e1] at c1; exact absurd rfl c1
      · exact absurd e1 c2
      · exact absurd e1 ‹_›
  · rcases (hu a).2.2 with hper | ⟨t1, t2, ho⟩ | ⟨t, ho⟩
    · have hlast : i a + 1 = u.array.shape a := by
        by_contra hne
        exact hl ⟨by omega, Or.inl hper⟩
      refine exact' ?_
      rw [hper, if_pos rfl]
      have er : rollIdx u.array.shape a 1 i = Function.update i a 0 := by
        unfold rollIdx
        rw [hlast, Int.emod_self]
      rw [er, hmove 0 le_rfl (by omega), ← (hf a (Function.update p a _)).1 hper, Function.update_idem, Function.update_self, hpa, hend]
      have hlr : ((i a : ℝ)) = u.array.shape a - 1 := by
        have : ((i a + 1 : ℤ) : ℝ) = ((u.array.shape a : ℤ) : ℝ) := by exact_mod_cast hlast
        push_cast at this
        linarith
      congr 2
      rw [hlr, hn]
      push_cast
      ring
    · have hlast : i a + 1 = u.array.shape a := by
        by_contra hne
        exact hl ⟨by omega, Or.inr (Or.inl ho)⟩
      have hlr : ((i a : ℝ)) = u.array.shape a - 1 := by
        have : ((i a + 1 : ℤ) : ℝ) = ((u.array.shape a : ℤ) : ℝ) := by exact_mod_cast hlast
        push_cast at this
        linarith
      have ho' : (o a : ℝ) = 1 / 2 := by rw [hod, ho]; norm_num
      have ew : p a = (g.domain a).2 - g.step a / 2 := by rw [hpa, hend, hlr, ho', hn]; ring
      have hdat : u.array.data i = f (Function.update p a ((g.domain a).2 - g.step a / 2)) := by rw [← ew, Function.update_eq_self]; exact hs i hi
      have ep : p a + g.step a = (g.domain a).2 + g.step a / 2 := by rw [ew]; ring
      have hnp : (u.bc.types a).2 ≠ .periodic := by rcases t2 with e | e <;> rw [e] <;> decide
      rw [if_neg hnp, if_pos ho, if_neg (by omega), ep]
      have hE : u.upperError a M2 M3 i = (u.bc.types a).2.wallError M2 M3 (g.step a) := if_pos ⟨hlast, ho⟩
      rw [hE]
      rcases t2 with e | e
      · rw [if_pos e, ← (hf a p).2.2.1 e, hdat]
        rw [e]
        exact dirichlet_ghost_bound (h2.slice p).1 (h2.slice p).2 (g.domain a).2 (g.step a)
      · rw [if_neg (by rw [e]; decide), ← (hf a p).2.2.2.2 e, hdat, partialDeriv_update]
        rw [e]
        have := neumann_ghost_bound (h3.slice p).1 (h3.slice p).2 (g.domain a).2 hstep
        rw [abs_sub_comm]
        refine (le_of_eq (congrArg abs ?_)).trans this
        beta_reduce
        ring
    · have hsec : i a + 2 = u.array.shape a := by
        have : u.interior a = u.array.shape a - 1 := by unfold GridVariable.interior; rw [if_pos ⟨t, ho⟩]
        by_contra hne
        exact hl ⟨by omega, Or.inr (Or.inr (by omega))⟩
      have hlr : ((i a : ℝ)) = u.array.shape a - 2 := by
        have : ((i a + 2 : ℤ) : ℝ) = ((u.array.shape a : ℤ) : ℝ) := by exact_mod_cast hsec
        push_cast at this
        linarith
      have ho' : (o a : ℝ) = 1 := by rw [hod, ho]; norm_num
      have ep : p a + g.step a = (g.domain a).2 := by rw [hpa, hend, hlr, ho', hn]; ring
      refine exact' ?_
      rw [t, if_neg (by decide), if_neg (by rw [ho]; norm_num), if_neg (by omega), ep, (hf a p).2.2.1 (by rw [t])]

/-- The value below a cell. -/
theorem below_close (hu : u.Supported) (hg : u.array.grid.Valid) (hf : u.bc.Obeys u.array.grid f) (hs : u.array.Samples f) (a : Fin d) (M2 M3 : ℝ) (h2 : SmoothAlong 2 a M2 f) (h3 : SmoothAlong 3 a M3 f)
    {i : Idx d} (hi : InR u.array.shape i) :
    |u.below a i - f (Function.update (u.array.grid.position u.array.offset i) a (u.array.grid.position u.array.offset i a - u.array.grid.step a))| ≤ u.array.grid.step a ^ 2 * u.lowerError a M2 M3 i := by
  set g := u.array.grid with hgd
  set o := u.array.offset with hod
  set p := g.position o i with hp
  have hpa : p a = (g.domain a).1 + ((i a : ℝ) + (o a : ℝ)) * g.step a := rfl
  have hia := hi a
  have hsa := (hu a).1
  have hM2 : 0 ≤ M2 := (abs_nonneg _).trans (h2.2 p)
  have hM3 : 0 ≤ M3 := (abs_nonneg _).trans (h3.2 p)
  have hstep := hg.step_pos a
  have hue : 0 ≤ g.step a ^ 2 * u.lowerError a M2 M3 i := by
    unfold GridVariable.lowerError
    refine mul_nonneg (by positivity) ?_
    split_ifs
    · exact wallError_nonneg hM2 hM3 hstep.le _
    · exact le_rfl
  have hmove : ∀ x : ℤ, 0 ≤ x → x < u.array.shape a → u.array.data (Function.update i a x) = f (Function.update p a ((g.domain a).1 + ((x : ℝ) + (o a : ℝ)) * g.step a)) := fun x h0 h1 => by
    rw [hs _ (hi.update a h0 h1), position_move]
  have exact' : ∀ {x y : ℝ}, x = y → |x - y| ≤ g.step a ^ 2 * u.lowerError a M2 M3 i := fun e => by rw [e, sub_self, abs_zero]; exact hue
  have hend := upper_end hg a
  have hn : ((g.shape a : ℕ) : ℝ) = u.array.shape a := by rw [hsa]
  unfold GridVariable.below
  by_cases hl : 0 < i a
  · refine exact' ?_
    have e : u.array.data (Function.update i a (i a - 1)) = f (Function.update p a (p a - g.step a)) := by
      rw [hmove _ (by omega) (by omega), hpa]
      congr 2
      push_cast
      ring
    have er : rollIdx u.array.shape a (-1) i = Function.update i a (i a - 1) := by
      unfold rollIdx
      rw [Int.emod_eq_of_lt (by omega) (by omega)]
      rfl
    rw [← e, er, if_pos hl, ite_self]
  · have h0 : i a = 0 := by omega
    have h0r : (i a : ℝ) = 0 := by exact_mod_cast h0
    rw [if_neg hl]
    rcases (hu a).2.2 with hper | ⟨t1, t2, ho⟩ | ⟨t, ho⟩
    · refine exact' ?_
      rw [hper, if_pos rfl]
      have er : rollIdx u.array.shape a (-1) i = Function.update i a (u.array.shape a - 1) := by
        unfold rollIdx
        rw [h0, ← Int.add_emod_right, Int.emod_eq_of_lt (by omega) (by omega)]
        congr 1
      rw [er, hmove _ (by omega) (by omega), ← (hf a (Function.update p a (p a - g.step a))).1 hper, Function.update_idem, Function.update_self, hpa, hend, h0r]
      congr 2
      rw [hn]
      push_cast
      ring
    · have ho' : (o a : ℝ) = 1 / 2 := by rw [hod, ho]; norm_num
      have ew : p a = (g.domain a).1 + g.step a / 2 := by rw [hpa, h0r, ho']; ring
      have hdat : u.array.data i = f (Function.update p a ((g.domain a).1 + g.step a / 2)) := by rw [← ew, Function.update_eq_self]; exact hs i hi
      have ep : p a - g.step a = (g.domain a).1 - g.step a / 2 := by rw [ew]; ring
      have hnp : (u.bc.types a).1 ≠ .periodic := by rcases t1 with e | e <;> rw [e] <;> decide
      rw [if_neg hnp, if_pos ho, ep]
      have hE : u.lowerError a M2 M3 i = (u.bc.types a).1.wallError M2 M3 (g.step a) := if_pos ⟨h0, ho⟩
      rw [hE]
      rcases t1 with e | e
      · rw [if_pos e, ← (hf a p).2.1 e, hdat]
        rw [e]
        have := dirichlet_ghost_bound (h2.slice p).1 (h2.slice p).2 (g.domain a).1 (g.step a)
        refine (le_of_eq (congrArg abs ?_)).trans this
        beta_reduce
        ring
      · rw [if_neg (by rw [e]; decide), ← (hf a p).2.2.2.1 e, hdat, partialDeriv_update]
        rw [e]
        have := neumann_ghost_bound (h3.slice p).1 (h3.slice p).2 (g.domain a).1 hstep
        refine (le_of_eq (congrArg abs ?_)).trans this
        beta_reduce
        ring
    · have ho' : (o a : ℝ) = 1 := by rw [hod, ho]; norm_num
      have ep : p a - g.step a = (g.domain a).1 := by rw [hpa, h0r, ho']; ring
      refine exact' ?_
      rw [t, if_neg (by decide), if_neg (by rw [ho]; norm_num), ep, (hf a p).2.1 (by rw [t])]

/-- **C73** Between walls: at every point inside the domain the Laplacian of samples of a smooth function that obeys the boundary conditions is the sum of its second derivatives, up to second order and, next
to walls that the data do not touch, the error `wallError`: first order at Neumann walls, but a quarter of the second derivative at Dirichlet walls. -/
theorem C73_wall_laplacian (hu : u.Supported) (hg : u.array.grid.Valid) (hf : u.bc.Obeys u.array.grid f) (hs : u.array.Samples f) (M2 M3 M4 : Fin d → ℝ)
    (h2 : ∀ a, SmoothAlong 2 a (M2 a) f) (h3 : ∀ a, SmoothAlong 3 a (M3 a) f) (h4 : ∀ a, SmoothAlong 4 a (M4 a) f) :
    ∃ r, laplacian u = .ok r ∧ r.grid = u.array.grid ∧ r.shape = u.array.shape ∧ r.offset = u.array.offset ∧
      ∀ i : Idx d, InR u.array.shape i → (∀ a, i a < u.interior a) →
        |r.data i - ∑ a, partialDeriv 2 a f (u.array.grid.position u.array.offset i)| ≤ ∑ a, (M4 a * u.array.grid.step a ^ 2 / 12 + u.wallError a (M2 a) (M3 a) i) := by
  obtain ⟨r, hr, hrs, hro, hrg, hrd⟩ := laplacian_supported' hu
  refine ⟨r, hr, hrg, hrs, hro, fun i hi hin => ?_⟩
  rw [hrd i hi, ← Finset.sum_sub_distrib]
  refine (Finset.abs_sum_le_sum_abs _ _).trans (Finset.sum_le_sum fun a _ => ?_)
  have ha := above_close hu hg hf hs a (M2 a) (M3 a) (h2 a) (h3 a) hi (hin a)
  have hb := below_close hu hg hf hs a (M2 a) (M3 a) (h2 a) (h3 a) hi
  have hc := second_bound ((h4 a).slice (u.array.grid.position u.array.offset i)).1 ((h4 a).slice (u.array.grid.position u.array.offset i)).2 (u.array.grid.position u.array.offset i a) (hg.step_pos a)
  have hd : u.array.data i = f (Function.update (u.array.grid.position u.array.offset i) a (u.array.grid.position u.array.offset i a)) := by rw [Function.update_eq_self]; exact hs i hi
  have hw : u.wallError a (M2 a) (M3 a) i = u.lowerError a (M2 a) (M3 a) i + u.upperError a (M2 a) (M3 a) i := rfl
  have hstep := hg.step_pos a
  rw [hw, hd]
  set F := fun t => f (Function.update (u.array.grid.position u.array.offset i) a t) with hF
  set x := u.array.grid.position u.array.offset i a
  set h := u.array.grid.step a
  have e2 : partialDeriv 2 a f (u.array.grid.position u.array.offset i) = iteratedDeriv 2 F x := rfl
  rw [e2]
  have hh : 0 < h ^ 2 := by positivity
  have e : (u.above a i + u.below a i - 2 * F x) / h ^ 2 - iteratedDeriv 2 F x =
      ((F (x + h) + F (x - h) - 2 * F x) / h ^ 2 - iteratedDeriv 2 F x) + (u.above a i - F (x + h)) / h ^ 2 + (u.below a i - F (x - h)) / h ^ 2 := by ring
  show |(u.above a i + u.below a i - 2 * F x) / h ^ 2 - iteratedDeriv 2 F x| ≤ _
  rw [e]
  refine (abs_add_three _ _ _).trans ?_
  have e3 : |(u.above a i - F (x + h)) / h ^ 2| ≤ u.upperError a (M2 a) (M3 a) i := by
    rw [abs_div, abs_of_pos hh, div_le_iff₀ hh, mul_comm]; exact ha
  have e4 : |(u.below a i - F (x - h)) / h ^ 2| ≤ u.lowerError a (M2 a) (M3 a) i := by
    rw [abs_div, abs_of_pos hh, div_le_iff₀ hh, mul_comm]; exact hb
  linarith [hc]

end

section
variable [HasNan ℝ] {g : Grid d ℝ} {v : Fin d → GridVariable d ℝ} {f : Fin d → (Fin d → ℝ) → ℝ}

/-- **C73** The divergence of a sampled velocity field in a box with walls and periodic directions is accurate to second order in every cell, including the cells at the walls. -/
theorem C73_wall_divergence (hd : d ≠ 0) (hv : VelocityField g v) (hg : g.Valid) (hf : ∀ a, (v a).bc.Obeys g (f a)) (hs : ∀ a, (v a).array.Samples (f a)) (M2 M : Fin d → ℝ)
    (h2 : ∀ a, SmoothAlong 2 a (M2 a) (f a)) (hM : ∀ a, SmoothAlong 3 a (M a) (f a)) :
    ∃ r, divergence (List.ofFn v) = .ok r ∧ r.grid = g ∧ r.shape = g.shape ∧ (r.offset = fun _ => 1 / 2) ∧
      r.Approximates (fun x => ∑ a, partialDeriv 1 a (f a) x) (∑ a, M a * g.step a ^ 2 / 24) := by
  obtain ⟨F, hF, hFd⟩ := hv.divergence_eq hd
  refine ⟨_, hF, rfl, rfl, rfl, fun i hi => ?_⟩
  have hi' : InR g.shape i := hi
  dsimp only
  rw [hFd i hi', ← Finset.sum_sub_distrib]
  refine (Finset.abs_sum_le_sum_abs _ _).trans (Finset.sum_le_sum fun a _ => ?_)
  obtain ⟨vg, vs, vo⟩ := hv.2.1 a
  have hiv : InR (v a).array.shape i := by rw [vs]; exact hi'
  have hb := below_close (hv.supported a) (by rw [vg]; exact hg) (by rw [vg]; exact hf a) (hs a) a (M2 a) (M a) (h2 a) (hM a) hiv
  have hl : (v a).lowerError a (M2 a) (M a) i = 0 := by
    unfold GridVariable.lowerError
    rw [if_neg fun e => ?_]
    have := e.2
    rw [vo, if_pos rfl] at this
    norm_num at this
  rw [hl, mul_zero] at hb
  have hb' := sub_eq_zero.1 (abs_eq_zero.1 (le_antisymm hb (abs_nonneg _)))
  rw [hb', hs a i hiv, vg]
  have hoa : (v a).array.offset = Function.update (fun _ : Fin d => (1 / 2 : ℚ)) a 1 := by
    funext b
    rw [vo]
    by_cases h : b = a
    · subst h; rw [if_pos rfl, Function.update_self]
    · rw [if_neg h, Function.update_of_ne h]
  set p := g.position (fun _ => (1 / 2 : ℚ)) i with hp
  have ep : g.position (v a).array.offset i = Function.update p a (p a + 1 / 2 * g.step a) := by
    rw [hoa, position_update]
    congr 2
    push_cast
    ring
  rw [ep, Function.update_idem, Function.update_self]
  have := half_bound ((hM a).slice p).1 ((hM a).slice p).2 (p a) (hg.step_pos a)
  show |_ - iteratedDeriv 1 (fun t => f a (Function.update p a t)) (p a)| ≤ _
  convert this using 4
  · congr 3
    · ring
    · ring

end

namespace Fixtures

/-- `n` cells on the unit interval -/
noncomputable def unitLine (n : ℕ) : Grid 1 ℝ := ⟨fun _ => n, fun _ => (0, 1)⟩

/-- the function `x ^ 2` at the cell centres, with its values 0 and 1 on the walls -/
noncomputable def parabola (n : ℕ) : GridVariable 1 ℝ :=
  ⟨⟨⟨fun _ => n, fun i => ((unitLine n).position (fun _ => 1 / 2) i 0) ^ 2⟩, fun _ => 1 / 2, unitLine n⟩, ⟨.constant, fun _ => (.dirichlet, .dirichlet), fun _ => (some 0, some 1)⟩⟩

theorem square_second (a : Fin 1) (x : Fin 1 → ℝ) : partialDeriv 2 a (fun y : Fin 1 → ℝ => y 0 ^ 2) x = 2 := by
  obtain rfl : a = 0 := Subsingleton.elim _ _
  unfold partialDeriv
  simp only [Function.update_self]
  rw [iteratedDeriv_succ, iteratedDeriv_one]
  have h1 : deriv (fun t : ℝ => t ^ 2) = fun t => 2 * t := by funext t; simp
  rw [h1]
  simp

end Fixtures

section
variable [HasNan ℝ]
open Fixtures

/-- **C73** The error at Dirichlet walls does not vanish with the resolution, and the bound is attained: on every grid of at least two cells the parabola `x ^ 2`, given at the cell centres with its values on the walls,
meets the hypotheses of `C73_wall_laplacian`; its second derivative is 2, but in the first cell `laplacian` returns 3/2. -/
theorem C73_dirichlet_wall_defect (n : ℕ) (hn : 2 ≤ n) :
    (parabola n).Supported ∧ (unitLine n).Valid ∧ (parabola n).bc.Obeys (unitLine n) (fun y : Fin 1 → ℝ => y 0 ^ 2) ∧ (parabola n).array.Samples (fun y : Fin 1 → ℝ => y 0 ^ 2) ∧
      (∀ a x, partialDeriv 2 a (fun y : Fin 1 → ℝ => y 0 ^ 2) x = 2) ∧
      ∃ r, laplacian (parabola n) = .ok r ∧ InR r.shape (fun _ => 0) ∧ r.data (fun _ => 0) = 3 / 2 := by
  have hsup : (parabola n).Supported := fun a => ⟨rfl, by show 0 < n; omega, Or.inr (Or.inl ⟨Or.inl rfl, Or.inl rfl, rfl⟩)⟩
  have hn0 : (n : ℝ) ≠ 0 := by positivity
  refine ⟨hsup, fun a => ⟨by show 0 < n; omega, by show (0 : ℝ) < 1; norm_num⟩, fun a x => ?_, fun i _ => rfl, square_second, ?_⟩
  · obtain rfl : a = 0 := Subsingleton.elim _ _
    have np : ¬ (((BCType.dirichlet, BCType.dirichlet) : BCType × BCType) = (.periodic, .periodic)) := by decide
    have nn : ¬ (BCType.dirichlet = BCType.neumann) := by decide
    rw [show (parabola n).bc.types 0 = (.dirichlet, .dirichlet) from rfl]
    refine ⟨fun h => absurd h np, fun _ => ?_, fun _ => ?_, fun h => absurd h nn, fun h => absurd h nn⟩
    · simp [unitLine, parabola, BC.constantValues]
    · simp [unitLine, parabola, BC.constantValues]
  · obtain ⟨r, hr, hrs, -, -, hrd⟩ := laplacian_supported' hsup
    have np : ¬ (BCType.dirichlet = BCType.periodic) := by decide
    have ht : (parabola n).bc.types 0 = (.dirichlet, .dirichlet) := rfl
    have ho : (parabola n).array.offset 0 = 1 / 2 := rfl
    have h0 : InR (parabola n).array.shape (fun _ => 0) := fun a => ⟨le_rfl, by show (0 : ℤ) < n; omega⟩
    refine ⟨r, hr, by rw [hrs]; exact h0, ?_⟩
    rw [hrd _ h0, Fin.sum_univ_one]
    have e1 : (parabola n).above 0 (fun _ => 0) = (3 / (2 * n)) ^ 2 := by
      unfold GridVariable.above
      rw [ht, if_neg np, if_pos ho, if_pos (by show (0 : ℤ) + 1 < n; omega)]
      simp only [parabola, Grid.position, unitLine, Grid.step, Function.update_self]
      push_cast
      field_simp
      norm_num
    have e2 : (parabola n).array.data (fun _ => 0) = (1 / (2 * n)) ^ 2 := by
      simp only [parabola, Grid.position, unitLine, Grid.step]
      push_cast
      field_simp
      norm_num
    have e3 : (parabola n).below 0 (fun _ => 0) = -(1 / (2 * n)) ^ 2 := by
      unfold GridVariable.below
      rw [ht, if_neg np, if_neg (lt_irrefl _), if_pos ho, if_pos rfl, e2]
      simp [parabola, BC.constantValues]
    have e4 : (parabola n).array.grid.step 0 = 1 / n := by simp [parabola, unitLine, Grid.step]
    rw [e1, e2, e3, e4]
    field_simp
    norm_num

/-- The hypotheses of `C73_wall_laplacian` on the smoothness, for the parabola. -/
example (a : Fin 1) : SmoothAlong 2 a 2 (fun y : Fin 1 → ℝ => y 0 ^ 2) := by
  refine ⟨fun x => ?_, fun x => by rw [square_second]; norm_num⟩
  obtain rfl : a = 0 := Subsingleton.elim _ _
  simp only [Function.update_self]
  fun_prop

/-- the flow `sin x` on the faces of the closed interval from 0 to 2π: at rest on the walls -/
noncomputable def wallFlow (n : ℕ) (_ : Fin 1) : GridVariable 1 ℝ :=
  ⟨⟨⟨fun _ => n, fun i => Fixtures.wave 1 0 ((Fixtures.torus 1 n).position (fun _ => 1) i)⟩, fun _ => 1, Fixtures.torus 1 n⟩, ⟨.homogeneous, fun _ => (.dirichlet, .dirichlet), fun _ => (some 0, some 0)⟩⟩

/-- The divergence theorem applies to it, for every resolution: the divergence is `cos x` up to `h ^ 2 / 24` in every cell, also at the walls. -/
example (n : ℕ) (hn : 0 < n) : ∃ r, divergence (List.ofFn (wallFlow n)) = .ok r ∧ r.Approximates (fun x => Real.cos (x 0)) ((2 * Real.pi / n) ^ 2 / 24) := by
  have hv : VelocityField (Fixtures.torus 1 n) (wallFlow n) := ⟨fun _ => hn, fun a => ⟨rfl, rfl, fun b => by rw [if_pos (Subsingleton.elim _ _)]; rfl⟩, fun b => Or.inr ⟨rfl, fun c => ⟨Or.inl rfl, Or.inl rfl⟩⟩⟩
  have hob : ∀ a, (wallFlow n a).bc.Obeys (Fixtures.torus 1 n) (Fixtures.wave 1 0) := fun a b x => by
    obtain rfl : b = 0 := Subsingleton.elim _ _
    have np : ¬ (((BCType.dirichlet, BCType.dirichlet) : BCType × BCType) = (.periodic, .periodic)) := by decide
    have nn : ¬ (BCType.dirichlet = BCType.neumann) := by decide
    rw [show (wallFlow n a).bc.types 0 = (.dirichlet, .dirichlet) from rfl]
    refine ⟨fun h => absurd h np, fun _ => ?_, fun _ => ?_, fun h => absurd h nn, fun h => absurd h nn⟩
    · simp [Fixtures.wave, Fixtures.torus, wallFlow, BC.constantValues]
    · simp [Fixtures.wave, Fixtures.torus, wallFlow, BC.constantValues]
  obtain ⟨r, hr, -, -, -, h⟩ := C73_wall_divergence (f := fun _ => Fixtures.wave 1 0) one_ne_zero hv (Fixtures.torus_valid hn) hob (fun a i _ => rfl) (fun _ => 1) (fun _ => 1)
    (fun a => by have := Fixtures.wave_smooth 2 1 0 a; rwa [abs_one] at this) (fun a => by have := Fixtures.wave_smooth 3 1 0 a; rwa [abs_one] at this)
  refine ⟨r, hr, fun i hi => ?_⟩
  have := h i hi
  simp only [Fixtures.wave_one, Fin.sum_univ_one, add_zero, one_mul] at this
  refine this.trans (le_of_eq ?_)
  simp [Fixtures.torus, Grid.step]

end
end JaxCfd
