import Verif.Props.DiffusionSolve
import Verif.Props.Impose

/-!
# C36: layout of the direct diffusion solver's result

`diffusion.solve_fast_diag` works on the points strictly inside the domain, so before it returns it has to put the wall points back.
-/

set_option linter.unusedSectionVars false

namespace JaxCfd
variable {d : ℕ} [HasNan ℝ]

theorem diffusionOne_eq {tpu : Bool} {eigh : EighFn ℝ} {nu dt : ℝ} {circulant : Bool} {impl : Option Impl}
    {u : GridVariable d ℝ} (ms : Fin d → Mat ℝ) (inner : GridArray d ℝ)
    (hms : laplacianMatrixWB u.array.grid u.array.offset u.bc = .ok ms) (hin : u.bc.trimBoundary u.array = .ok inner) :
    diffusionFastDiagOne tpu eigh nu dt circulant impl u = (do
      let t ← (do
        let op ← transform (d := d) tpu eigh (diffusionFn nu dt) (List.ofFn ms) true circulant impl
        let rhs ← diffusionRhs inner u.bc
        let w ← op rhs
        gmap2 (fun x y => x + y) inner ⟨w, inner.offset, inner.grid⟩)
      u.bc.padAndImposeBC t (some u.array.offset)) := by
  unfold diffusionFastDiagOne
  rw [hms, Except.bind_ok]
  cases transform (d := d) tpu eigh (diffusionFn nu dt) (List.ofFn ms) true circulant impl with
  | error e => rfl
  | ok op =>
    rw [Except.bind_ok, hin, Except.bind_ok, Except.bind_ok]
    cases diffusionRhs inner u.bc with
    | error e => rfl
    | ok rhs =>
      rw [Except.bind_ok, Except.bind_ok]
      cases op rhs with
      | error e => rfl
      | ok w => rfl

/-- The padding half of `impose_bc`, for an array with the layout `trim_boundary` leaves behind. -/
theorem padAndImpose_trimmed {u : GridVariable d ℝ} (hu : BC.OnGrid u.bc u.array) (t : GridArray d ℝ)
    (ts : t.shape = BC.axSize u.bc u.array) (to' : t.offset = fun a => u.array.offset a + BC.axLo u.bc u.array a)
    (tg : t.grid = u.array.grid) :
    ∃ q : GridArray d ℝ, u.bc.padAndImposeBC t (some u.array.offset) = .ok ⟨q, u.bc⟩ ∧ q.shape = u.array.shape ∧
      q.offset = u.array.offset ∧ q.grid = u.array.grid ∧ ∀ i : Idx d, InR u.array.shape i →
        q.data i = (List.finRange d).foldl
          (fun acc a => (BC.wallVal u.bc u.array.grid.shape u.array.offset a (i a)).getD acc)
          (t.data fun a => i a - BC.padLo u.bc u.array.offset a) := by
  have hready := BC.OnGrid.padReady (t := t) hu ts to' tg
  obtain ⟨q, hq, qs, qo, qg, qd⟩ := BC.padFold u.bc u.array.offset .extend _ (List.nodup_finRange d) t hready
  refine ⟨q, ?_, ?_, ?_, qg.trans tg, fun i hi => ?_⟩
  · unfold BC.padAndImposeBC
    simp only [Option.getD_some]
    rw [hq, Except.bind_ok]
    rfl
  · rw [qs]; funext a; simp [tg, (hu a).1]
  · rw [qo]; simp
  · rw [qd i (fun a _ => by have := hi a; rw [(hu a).1] at this; rw [tg]; exact this), tg]
    simp

theorem diffusionOne_inv {tpu : Bool} {eigh : EighFn ℝ} {nu dt : ℝ} {circulant : Bool} {impl : Option Impl}
    {u r : GridVariable d ℝ} (hu : BC.OnGrid u.bc u.array) (h : diffusionFastDiagOne tpu eigh nu dt circulant impl u = .ok r) :
    ∃ (ms : Fin d → Mat ℝ) (inner t : GridArray d ℝ), laplacianMatrixWB u.array.grid u.array.offset u.bc = .ok ms ∧
      u.bc.trimBoundary u.array = .ok inner ∧
      (do
        let op ← transform (d := d) tpu eigh (diffusionFn nu dt) (List.ofFn ms) true circulant impl
        let rhs ← diffusionRhs inner u.bc
        let w ← op rhs
        gmap2 (fun x y => x + y) inner ⟨w, inner.offset, inner.grid⟩) = .ok t ∧
      t.shape = BC.axSize u.bc u.array ∧ (t.offset = fun a => u.array.offset a + BC.axLo u.bc u.array a) ∧
      t.grid = u.array.grid ∧ u.bc.padAndImposeBC t (some u.array.offset) = .ok r := by
  have h0 := h
  unfold diffusionFastDiagOne at h0
  rw [Except.bind_eq_ok] at h0
  obtain ⟨ms, hms, -⟩ := h0
  have hin := BC.trimBoundary_ok u.bc u.array hu.trimOK
  rw [diffusionOne_eq ms _ hms hin, Except.bind_eq_ok] at h
  obtain ⟨t, ht, h⟩ := h
  refine ⟨ms, _, t, hms, hin, ht, ?_, ?_, ?_, h⟩
  all_goals
    rw [Except.bind_eq_ok] at ht
    obtain ⟨op, -, ht⟩ := ht
    rw [Except.bind_eq_ok] at ht
    obtain ⟨rhs, -, ht⟩ := ht
    rw [Except.bind_eq_ok] at ht
    obtain ⟨w, -, ht⟩ := ht
    obtain ⟨-, -, -, ht⟩ := gmap2_eq_ok.1 ht
    rw [ht]

theorem diffusionOne_layout {tpu : Bool} {eigh : EighFn ℝ} {nu dt : ℝ} {circulant : Bool} {impl : Option Impl}
    {u r : GridVariable d ℝ} (hu : BC.OnGrid u.bc u.array) (h : diffusionFastDiagOne tpu eigh nu dt circulant impl u = .ok r) :
    r.bc = u.bc ∧ r.array.shape = u.array.shape ∧ r.array.offset = u.array.offset ∧ r.array.grid = u.array.grid ∧
      (∀ i : Idx d, InR u.array.shape i → ∀ (a : Fin d) (b : ℝ), OnWall u.bc u.array i a b →
        (∀ c > a, ∀ b', ¬ OnWall u.bc u.array i c b') → r.array.data i = b) := by
  obtain ⟨ms, inner, t, -, -, -, ts, to', tg, h⟩ := diffusionOne_inv hu h
  obtain ⟨q, hq, qs, qo, qg, qd⟩ := padAndImpose_trimmed hu t ts to' tg
  rw [hq] at h
  have h : (⟨q, u.bc⟩ : GridVariable d ℝ) = r := Except.ok.inj h
  subst h
  refine ⟨rfl, qs, qo, qg, fun i hi a b hab hc => ?_⟩
  show q.data i = b
  rw [qd i hi]
  obtain ⟨l₁, l₂, hl, hlt⟩ := finRange_split a
  rw [hl]
  apply foldl_getD_last (fun a => BC.wallVal u.bc u.array.grid.shape u.array.offset a (i a)) l₁ l₂ a _ b
    ((wallVal_of_onWall hu hi a b).2 hab)
  intro c hc'
  rw [Option.eq_none_iff_forall_ne_some]
  intro b' hb'
  exact hc c (hlt c hc') b' ((wallVal_of_onWall hu hi c b').1 hb')

/-- **C36.** Whatever variables on the grid `diffusion.solve_fast_diag` is given - wall points stored at the upper or at the lower
end of an axis included - the components it returns have the layout and boundary conditions of the components it was given, and
carry the prescribed values at the points on Dirichlet walls (those of the last axis where walls of several axes meet). -/
theorem C36_diffusion_layout (v r : Fin d → GridVariable d ℝ) (nu dt : ℝ) (tpu : Bool) (eigh : EighFn ℝ) (impl : Option Impl)
    (hv : ∀ a, BC.OnGrid (v a).bc (v a).array) (h : diffusionFastDiag tpu eigh v nu dt impl = .ok r) (a : Fin d) :
    (r a).bc = (v a).bc ∧ (r a).array.shape = (v a).array.shape ∧ (r a).array.offset = (v a).array.offset ∧
      (r a).array.grid = (v a).array.grid ∧
      ∀ i : Idx d, InR (v a).array.shape i → ∀ (c : Fin d) (b : ℝ), OnWall (v a).bc (v a).array i c b →
        (∀ c' > c, ∀ b', ¬ OnWall (v a).bc (v a).array i c' b') → (r a).array.data i = b :=
  diffusionOne_layout (hv a) ((seqFin_eq_ok _ _).1 h a)

/-- The same variable with the wall points of every axis stored at the upper instead of the lower end (the layout the rest of the
library uses): the points inside the domain keep their positions. -/
def GridVariable.upperWalls (u : GridVariable d ℝ) : GridVariable d ℝ :=
  ⟨⟨⟨u.array.shape, fun i => u.array.data fun a => i a + BC.padLo u.bc u.array.offset a⟩,
    fun a => u.array.offset a + BC.padLo u.bc u.array.offset a, u.array.grid⟩, u.bc⟩

theorem padLo_cases {u : GridVariable d ℝ} (hu : BC.OnGrid u.bc u.array) (a : Fin d) :
    BC.padLo u.bc u.array.offset a = 0 ∨
      (u.bc.types a = (.dirichlet, .dirichlet) ∧ u.array.offset a = 0 ∧ BC.padLo u.bc u.array.offset a = 1) := by
  unfold BC.padLo
  by_cases h : (u.bc.types a).1 = .dirichlet ∧ u.array.offset a = 0
  · rw [if_pos h]
    obtain ⟨hs, hN, hp | ⟨-, -, ho⟩ | ⟨ht, ho⟩⟩ := hu a
    · rw [hp] at h; exact absurd h.1 (by decide)
    · rw [ho] at h; norm_num at h
    · exact Or.inr ⟨ht, h.2, rfl⟩
  · rw [if_neg h]; exact Or.inl rfl

theorem upperWalls_onGrid {u : GridVariable d ℝ} (hu : BC.OnGrid u.bc u.array) :
    BC.OnGrid u.upperWalls.bc u.upperWalls.array := by
  intro a
  obtain ⟨hs, hN, h | ⟨h1, h2, ho⟩ | ⟨ht, ho⟩⟩ := hu a
  · exact ⟨hs, hN, Or.inl h⟩
  · refine ⟨hs, hN, Or.inr (Or.inl ⟨h1, h2, ?_⟩)⟩
    show u.array.offset a + ((BC.padLo u.bc u.array.offset a : ℤ) : ℚ) = 1 / 2
    rw [BC.padLo, ho, if_neg (by rintro ⟨-, hh⟩; norm_num at hh)]
    norm_num
  · refine ⟨hs, hN, Or.inr (Or.inr ⟨ht, Or.inr ?_⟩)⟩
    show u.array.offset a + ((BC.padLo u.bc u.array.offset a : ℤ) : ℚ) = 1
    rcases ho with ho | ho
    · rw [BC.padLo, ho, if_pos ⟨by rw [ht], rfl⟩]; norm_num
    · rw [BC.padLo, ho, if_neg (by rintro ⟨-, hh⟩; norm_num at hh)]; norm_num

theorem padLo_upperWalls {u : GridVariable d ℝ} (hu : BC.OnGrid u.bc u.array) (a : Fin d) :
    BC.padLo u.bc u.upperWalls.array.offset a = 0 := by
  unfold BC.padLo
  rw [if_neg]
  rintro ⟨h1, h2⟩
  have h2 : u.array.offset a + ((BC.padLo u.bc u.array.offset a : ℤ) : ℚ) = 0 := h2
  obtain ⟨-, -, h | ⟨-, -, ho⟩ | ⟨ht, ho⟩⟩ := hu a
  · rw [h] at h1; cases h1
  · rw [BC.padLo, ho, if_neg (by rintro ⟨-, hh⟩; norm_num at hh)] at h2
    norm_num at h2
  · rcases ho with ho | ho
    · rw [BC.padLo, ho, if_pos ⟨h1, rfl⟩] at h2; norm_num at h2
    · rw [BC.padLo, ho, if_neg (by rintro ⟨-, hh⟩; norm_num at hh)] at h2; norm_num at h2

theorem axLo_padLo {u : GridVariable d ℝ} (hu : BC.OnGrid u.bc u.array) (a : Fin d) :
    (BC.axLo u.bc u.array a : ℤ) = BC.padLo u.bc u.array.offset a := by
  unfold BC.axLo BC.padLo
  obtain ⟨hs, hN, h | ⟨h1, h2, ho⟩ | ⟨ht, ho⟩⟩ := hu a
  · simp [h]
  · rw [if_neg h1, ho, BC.trimLo_half, if_neg (by rintro ⟨-, hh⟩; norm_num at hh)]; rfl
  · rcases ho with ho | ho
    · simp [ht, ho, BC.trimLo_zero]
    · simp [ht, ho, BC.trimLo_one]

theorem axSize_upperWalls {u : GridVariable d ℝ} (hu : BC.OnGrid u.bc u.array) :
    BC.axSize u.bc u.upperWalls.array = BC.axSize u.bc u.array := by
  funext a
  have he : u.upperWalls.array.offset a = u.array.offset a + ((BC.padLo u.bc u.array.offset a : ℤ) : ℚ) := rfl
  have hs' : u.upperWalls.array.shape a = u.array.shape a := rfl
  have hg' : u.upperWalls.array.grid = u.array.grid := rfl
  unfold BC.axSize
  rw [he, hs', hg']
  rcases padLo_cases hu a with h | ⟨ht, ho, h⟩
  · rw [h, Int.cast_zero, add_zero]
  · rw [h, ho, ht, (hu a).1]
    simp [BC.trimLo_zero, BC.trimLo_one, BC.trimHi_zero, BC.trimHi_one]

theorem trimBoundary_upperWalls {u : GridVariable d ℝ} (hu : BC.OnGrid u.bc u.array) :
    u.bc.trimBoundary u.upperWalls.array = u.bc.trimBoundary u.array := by
  have hu' : BC.OnGrid u.bc u.upperWalls.array := upperWalls_onGrid hu
  rw [BC.trimBoundary_ok u.bc _ hu'.trimOK, BC.trimBoundary_ok u.bc _ hu.trimOK, axSize_upperWalls hu]
  have e1 : ∀ a, (BC.axLo u.bc u.upperWalls.array a : ℤ) = 0 := fun a =>
    (axLo_padLo (u := u.upperWalls) hu' a).trans (padLo_upperWalls hu a)
  have e2 : ∀ a, BC.axLo u.bc u.upperWalls.array a = 0 := fun a => by have := e1 a; omega
  have f1 : (fun i : Idx d => u.upperWalls.array.data fun a => i a + BC.axLo u.bc u.upperWalls.array a) =
      fun i : Idx d => u.array.data fun a => i a + BC.axLo u.bc u.array a := by
    funext i
    show u.array.data _ = u.array.data _
    congr 1
    funext a
    beta_reduce
    rw [e2, axLo_padLo hu]
    push_cast
    ring
  have f2 : (fun a : Fin d => u.upperWalls.array.offset a + (BC.axLo u.bc u.upperWalls.array a : ℚ)) =
      fun a => u.array.offset a + (BC.axLo u.bc u.array a : ℚ) := by
    funext a
    show u.array.offset a + ((BC.padLo u.bc u.array.offset a : ℤ) : ℚ) + _ = _
    rw [e2, ← axLo_padLo hu]
    push_cast
    ring
  rw [f1, f2]
  rfl

theorem laplacianMatrixWB_upperWalls {u : GridVariable d ℝ} (hu : BC.OnGrid u.bc u.array) :
    laplacianMatrixWB u.array.grid u.upperWalls.array.offset u.bc = laplacianMatrixWB u.array.grid u.array.offset u.bc := by
  unfold laplacianMatrixWB
  congr 1
  funext ms
  congr 1
  funext a
  have he : u.upperWalls.array.offset a = u.array.offset a + ((BC.padLo u.bc u.array.offset a : ℤ) : ℚ) := rfl
  rw [he]
  unfold BC.padLo
  obtain ⟨hs, hN, h | ⟨h1, h2, ho⟩ | ⟨ht, ho⟩⟩ := hu a
  · simp [h]
  · rw [ho, if_neg (by rintro ⟨-, hh⟩; norm_num at hh)]; norm_num
  · rcases ho with ho | ho
    · rw [ho, ht]
      unfold laplacianMatrixAxis
      simp
    · rw [ho, if_neg (by rintro ⟨-, hh⟩; norm_num at hh)]; norm_num

theorem diffusionOne_lower {tpu : Bool} {eigh : EighFn ℝ} {nu dt : ℝ} {circulant : Bool} {impl : Option Impl}
    {u r' : GridVariable d ℝ} (hu : BC.OnGrid u.bc u.array)
    (h : diffusionFastDiagOne tpu eigh nu dt circulant impl u.upperWalls = .ok r') :
    ∃ r, diffusionFastDiagOne tpu eigh nu dt circulant impl u = .ok r ∧ ∀ i j : Idx d, InR u.array.shape i →
      InR u.array.shape j → (∀ b, r.array.offset b + i b = r'.array.offset b + j b) → r.array.data i = r'.array.data j := by
  have hu' : BC.OnGrid u.bc u.upperWalls.array := upperWalls_onGrid hu
  obtain ⟨ms, inner, t, hms, hin, ht, ts, to', tg, h⟩ := diffusionOne_inv (u := u.upperWalls) hu' h
  have hms : laplacianMatrixWB u.array.grid u.array.offset u.bc = .ok ms :=
    (laplacianMatrixWB_upperWalls hu).symm.trans hms
  have hin : u.bc.trimBoundary u.array = .ok inner := (trimBoundary_upperWalls hu).symm.trans hin
  have e0 : ∀ a, BC.axLo u.bc u.upperWalls.array a = 0 := fun a => by
    have : (BC.axLo u.bc u.upperWalls.array a : ℤ) = 0 :=
      (axLo_padLo (u := u.upperWalls) hu' a).trans (padLo_upperWalls hu a)
    omega
  have eoff : ∀ a, u.upperWalls.array.offset a = u.array.offset a + ((BC.padLo u.bc u.array.offset a : ℤ) : ℚ) := fun a => rfl
  obtain ⟨q', hq', qs', qo', qg', qd'⟩ := padAndImpose_trimmed (u := u.upperWalls) hu' t ts to' tg
  rw [hq'] at h
  have h : (⟨q', u.upperWalls.bc⟩ : GridVariable d ℝ) = r' := Except.ok.inj h
  subst h
  obtain ⟨q, hq, qs, qo, qg, qd⟩ := padAndImpose_trimmed hu t (ts.trans (axSize_upperWalls hu)) (by
    rw [to']
    funext a
    have h1 := axLo_padLo hu a
    have h2 := e0 a
    show u.upperWalls.array.offset a + (BC.axLo u.bc u.upperWalls.array a : ℚ) = _
    rw [h2, eoff, ← h1]
    push_cast
    ring) tg
  refine ⟨⟨q, u.bc⟩, ?_, fun i j hi hj hpos => ?_⟩
  · rw [diffusionOne_eq ms inner hms hin]
    have ht' := ht
    rw [show u.upperWalls.bc = u.bc from rfl] at ht'
    rw [ht', Except.bind_ok]
    exact hq
  · show q.data i = q'.data j
    have hpos : ∀ b, i b = j b + BC.padLo u.bc u.array.offset b := by
      intro b
      have h1 : q.offset b + i b = q'.offset b + j b := hpos b
      rw [qo, qo', eoff] at h1
      have : (i b : ℚ) = ((j b + BC.padLo u.bc u.array.offset b : ℤ) : ℚ) := by push_cast; linarith
      exact_mod_cast this
    rw [qd i hi, qd' j hj]
    have hd : (fun a => i a - BC.padLo u.bc u.array.offset a) =
        fun a => j a - BC.padLo u.upperWalls.bc u.upperWalls.array.offset a := by
      funext a
      have : BC.padLo u.upperWalls.bc u.upperWalls.array.offset a = 0 := padLo_upperWalls hu a
      rw [this, hpos a]
      ring
    rw [hd]
    have hw : ∀ a, BC.wallVal u.bc u.array.grid.shape u.array.offset a (i a) =
        BC.wallVal u.upperWalls.bc u.upperWalls.array.grid.shape u.upperWalls.array.offset a (j a) := by
      intro a
      have hia := hi a
      have hja := hj a
      have hp := hpos a
      have h1 : u.upperWalls.bc = u.bc := rfl
      have h2 : u.upperWalls.array.grid = u.array.grid := rfl
      unfold BC.wallVal
      rw [h1, h2, eoff]
      rcases padLo_cases hu a with h | ⟨ht, ho, h⟩
      · rw [hp, h, Int.cast_zero, add_zero, add_zero]
      · rw [h] at hp
        rw [h, ho, (hu a).1] at *
        have n1 : ¬ i a = 0 := by omega
        have n2 : ¬ j a = (u.array.grid.shape a : ℤ) - 1 := by omega
        simp [n1, n2]
    simp only [hw]

/-- **C36.** Storing the wall points at the lower end of an axis instead of the upper one makes no difference to what
`diffusion.solve_fast_diag` computes inside the domain: it succeeds for the one layout when it does for the other, and the results
agree at equal positions. -/
theorem C36_diffusion_lower_walls (v r' : Fin d → GridVariable d ℝ) (nu dt : ℝ) (tpu : Bool) (eigh : EighFn ℝ)
    (impl : Option Impl) (hv : ∀ a, BC.OnGrid (v a).bc (v a).array)
    (h : diffusionFastDiag tpu eigh (fun a => (v a).upperWalls) nu dt impl = .ok r') :
    ∃ r, diffusionFastDiag tpu eigh v nu dt impl = .ok r ∧ ∀ (a : Fin d) (i j : Idx d), InR (v a).array.shape i →
      InR (v a).array.shape j → (∀ b, (r a).array.offset b + i b = (r' a).array.offset b + j b) →
      (r a).array.data i = (r' a).array.data j := by
  have hper : hasAllPeriodic (List.ofFn fun a => (v a).upperWalls) = hasAllPeriodic (List.ofFn v) := by
    rw [Bool.eq_iff_iff]
    unfold hasAllPeriodic isPeriodicBC
    simp only [List.all_eq_true, List.mem_ofFn, forall_exists_index, forall_apply_eq_imp_iff]
    rfl
  unfold diffusionFastDiag at h
  dsimp only at h
  rw [hper] at h
  have hr := fun a => diffusionOne_lower (hv a) ((seqFin_eq_ok _ _).1 h a)
  choose r hr hd using hr
  refine ⟨r, ?_, hd⟩
  unfold diffusionFastDiag
  exact seqFin_ok _ (fun a => r a) (fun a => hr a)

section Fixtures
open Fixtures

/-- The Couette variables with the wall points stored at the lower end of the axes. -/
noncomputable def couetteLower (a : Fin 2) : GridVariable 2 ℝ :=
  ⟨⟨⟨![3, 4], fun i => (couette a).array.data fun b => i b - if b = a ∧ b = 1 then 1 else 0⟩,
    fun b => if b = a then (if b = 1 then 0 else 1) else 1 / 2, g34r⟩, (couette a).bc⟩

theorem couetteLower_onGrid (a : Fin 2) : BC.OnGrid (couetteLower a).bc (couetteLower a).array := by
  intro b
  fin_cases b
  · exact ⟨rfl, by simp [couetteLower, g34r], Or.inl rfl⟩
  · refine ⟨rfl, by simp [couetteLower, g34r], Or.inr ?_⟩
    fin_cases a
    · left; exact ⟨by simp [couetteLower, couette], by simp [couetteLower, couette], by simp [couetteLower]⟩
    · right; exact ⟨by simp [couetteLower, couette], by simp [couetteLower]⟩

theorem couetteLower_upper : (fun a => (couetteLower a).upperWalls) = couette := by
  funext a
  have hp : ∀ b, BC.padLo (couetteLower a).bc (couetteLower a).array.offset b = if b = a ∧ b = 1 then 1 else 0 := by
    intro b
    fin_cases a <;> fin_cases b <;> norm_num [BC.padLo, couetteLower, couette]
  unfold GridVariable.upperWalls
  simp only [hp]
  have h1 : (fun i : Idx 2 => (couetteLower a).array.data fun b => i b + if b = a ∧ b = 1 then 1 else 0) =
      (couette a).array.data := by
    funext i
    simp only [couetteLower, add_sub_cancel_right]
  have h2 : (fun b => (couetteLower a).array.offset b + (((if b = a ∧ b = 1 then 1 else 0 : ℤ)) : ℚ)) =
      (couette a).array.offset := by
    funext b
    fin_cases a <;> fin_cases b <;> norm_num [couetteLower, couette]
  rw [h1, h2]
  rfl

example : ∃ r, diffusionFastDiag false exists_eigh.choose couetteLower 1 1000 none = .ok r ∧
    (r 1).array.offset 1 = 0 ∧ (r 1).array.data ![0, 0] = 0 := by
  obtain ⟨r', hr', -⟩ := C36_diffusion (by norm_num) couette 1 1000 (by norm_num) couette_supported
    (fun a b => by fin_cases b <;> simp [couette, g34r]) (fun a b => by fin_cases b <;> simp [couette, g34r]) (fun a => by
      refine Or.inr (Or.inr ⟨rfl, fun b => ⟨fun hb => ?_, fun hb => ?_⟩⟩)
      · obtain rfl : b = 0 := Fin.ext hb
        exact Or.inl rfl
      · obtain rfl : b = 1 := Fin.ext hb
        refine ⟨rfl, ?_⟩
        fin_cases a
        · exact ⟨0, 1, rfl⟩
        · exact ⟨0, 0, rfl⟩)
    false _ exists_eigh.choose_spec none (Or.inl rfl)
  rw [← couetteLower_upper] at hr'
  obtain ⟨r, hr, -⟩ := C36_diffusion_lower_walls couetteLower r' 1 1000 false _ none couetteLower_onGrid hr'
  obtain ⟨-, -, ho, -, hw⟩ := C36_diffusion_layout couetteLower r 1 1000 false _ none couetteLower_onGrid hr 1
  refine ⟨r, hr, by rw [ho]; simp [couetteLower], hw ![0, 0] ?_ 1 0 ?_ ?_⟩
  · intro b; fin_cases b <;> simp [couetteLower]
  · refine ⟨rfl, Or.inl ⟨by simp [couetteLower], ?_⟩⟩
    simp [couetteLower, couette, BC.constantValues]
  · intro c hc
    fin_cases c <;> simp at hc

end Fixtures

end JaxCfd
