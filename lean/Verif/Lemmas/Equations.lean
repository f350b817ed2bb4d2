import Verif.Model.Equations
import Verif.Props.InitialConditions
import Verif.Props.TimeStepping
import Verif.Props.Advection
import Verif.Props.DiffusionSolve

/-!
# Lemmas on the Navier-Stokes steps
-/

namespace JaxCfd
variable {d : ℕ}

/-- Two tuples of variables have the same layout: offsets, grids, boundary conditions and shapes. -/
def SameLayout (v r : Fin d → GridVariable d ℝ) : Prop :=
  ∀ a, (r a).array.offset = (v a).array.offset ∧ (r a).array.grid = (v a).array.grid ∧ (r a).bc = (v a).bc ∧
    (r a).array.shape = (v a).array.shape

theorem leavesLike_eq_ok {v r : Fin d → GridVariable d ℝ} {x : Leaves d} :
    leavesLike v r = .ok x ↔ SameLayout v r ∧ x = leaves r := by
  unfold leavesLike SameLayout
  by_cases h1 : ∃ a, (r a).array.offset ≠ (v a).array.offset ∨ (r a).array.grid ≠ (v a).array.grid ∨ (r a).bc ≠ (v a).bc
  · rw [if_pos h1]
    constructor
    · intro h; cases h
    · rintro ⟨h, -⟩
      obtain ⟨a, h1 | h1 | h1⟩ := h1
      · exact absurd (h a).1 h1
      · exact absurd (h a).2.1 h1
      · exact absurd (h a).2.2.1 h1
  · rw [if_neg h1]
    by_cases h2 : ∃ a, (r a).array.shape ≠ (v a).array.shape
    · rw [if_pos h2]
      constructor
      · intro h; cases h
      · rintro ⟨h, -⟩
        obtain ⟨a, h2⟩ := h2
        exact absurd (h a).2.2.2 h2
    · rw [if_neg h2]
      push Not at h1 h2
      constructor
      · intro h
        injection h with h
        exact ⟨fun a => ⟨(h1 a).1, (h1 a).2.1, (h1 a).2.2, h2 a⟩, h.symm⟩
      · rintro ⟨-, rfl⟩; rfl

theorem leaves_inR {v : Fin d → GridVariable d ℝ} {a : Fin d} {i : Idx d} (hi : InR (v a).array.shape i) :
    leaves v a i = (v a).array.data i := by
  unfold leaves; rw [if_pos hi]

theorem leaves_out {v : Fin d → GridVariable d ℝ} {a : Fin d} {i : Idx d} (hi : ¬ InR (v a).array.shape i) : leaves v a i = 0 := by
  unfold leaves; rw [if_neg hi]

theorem withLeaves_layout (v : Fin d → GridVariable d ℝ) (x : Leaves d) : SameLayout v (withLeaves v x) :=
  fun _ => ⟨rfl, rfl, rfl, rfl⟩

/-- The sum of two tuples of arrays. -/
theorem sumFields2 {x y r : Fin d → GridArray d ℝ} : sumFields [x, y] = .ok r ↔
    ∀ a, ((x a).offset = (r a).offset ∧ (x a).grid = (r a).grid ∧ (x a).shape = (r a).shape) ∧
      ((y a).offset = (r a).offset ∧ (y a).grid = (r a).grid ∧ (y a).shape = (r a).shape) ∧
      ∀ i, (r a).data i = (x a).data i + (y a).data i := by
  unfold sumFields
  rw [seqFin_eq_ok]
  refine forall_congr' fun a => ?_
  rw [sumField_eq_ok]
  simp only [List.map_cons, List.map_nil, ne_eq, reduceCtorEq, not_false_eq_true, true_and, List.forall_mem_cons, List.sum_cons,
    List.sum_nil, add_zero, List.not_mem_nil, false_implies, implies_true, and_true, funext_iff, and_assoc]

theorem sumFields1 {x r : Fin d → GridArray d ℝ} : sumFields [x] = .ok r ↔
    ∀ a, ((x a).offset = (r a).offset ∧ (x a).grid = (r a).grid ∧ (x a).shape = (r a).shape) ∧ ∀ i, (r a).data i = (x a).data i := by
  unfold sumFields
  rw [seqFin_eq_ok]
  refine forall_congr' fun a => ?_
  rw [sumField_eq_ok]
  simp only [List.map_cons, List.map_nil, ne_eq, reduceCtorEq, not_false_eq_true, true_and, List.forall_mem_cons, List.sum_cons,
    List.sum_nil, add_zero, List.not_mem_nil, false_implies, implies_true, and_true, funext_iff, and_assoc]

section RK
variable {K V : Type} [Field K] [DecidableEq K] [AddCommGroup V] [Module K V]

/-- With total terms and a total projection a step returns a value. -/
theorem navierStokesRK_total {a : List (List K)} {b : List K} {t : Tableau K} (ht : mkTableau a b = .ok t)
    (hrows : ∀ i < a.length, i + 1 ≤ (a.getD i []).length) (F P : V → Except Err V) (hF : ∀ x, ∃ y, F x = .ok y)
    (hP : ∀ x, ∃ y, P x = .ok y) (dt : K) (u : V) : ∃ r, navierStokesRK t F P dt u = .ok r := by
  obtain ⟨hl, rfl⟩ := mkTableau_eq_ok.1 ht
  have key : ∀ (rows : List (List K)) (ks : List V), (∀ i < rows.length, ks.length + i ≤ (rows.getD i []).length) →
      ∃ ks', rows.foldlM (rkStage F P dt u) ks = .ok ks' ∧ ks'.length = ks.length + rows.length := by
    intro rows
    induction rows with
    | nil => intro ks _; exact ⟨ks, rfl, by simp⟩
    | cons row rows ih =>
      intro ks h
      have h0 : ks.length ≤ row.length := by simpa using h 0 (by simp)
      obtain ⟨p, hp⟩ := hP (u + dt • ∑ j ∈ Finset.range ks.length, row.getD j 0 • ks.getD j 0)
      obtain ⟨k, hk⟩ := hF p
      have hst : rkStage F P dt u ks row = .ok (ks ++ [k]) := by
        unfold rkStage
        rw [weightedSum_ok row ks h0, Except.bind_ok, hp, Except.bind_ok, hk]
        rfl
      obtain ⟨ks', h1, h2⟩ := ih (ks ++ [k]) (fun i hi => by
        have := h (i + 1) (by simpa using hi)
        simpa [List.getD_cons_succ, add_assoc, add_comm 1 i] using this)
      refine ⟨ks', by rw [List.foldlM_cons, hst, Except.bind_ok]; exact h1, by simp at h2 ⊢; omega⟩
  obtain ⟨k0, hk0⟩ := hF u
  obtain ⟨ks, hks, hlen⟩ := key a [k0] (fun i hi => by have := hrows i hi; simp only [List.length_cons, List.length_nil]; omega)
  obtain ⟨r, hr⟩ := hP (u + dt • ∑ j ∈ Finset.range ks.length, b.getD j 0 • ks.getD j 0)
  refine ⟨r, ?_⟩
  unfold navierStokesRK
  rw [hk0, Except.bind_ok, hks, Except.bind_ok, weightedSum_ok b ks (by simp at hlen; omega), Except.bind_ok]
  exact hr

end RK

variable [HasNan ℝ]

/-- Van Leer advection of a periodic scalar by a periodic velocity stored anywhere on the same grid. -/
theorem vanLeer_velocity (hd : d ≠ 0) {c : GridVariable d ℝ} (hc : c.Periodic) {v : Fin d → GridVariable d ℝ} (hv : ∀ a, (v a).Periodic)
    (hcls : ∀ a, (v a).bc.cls = .homogeneous) (hg : ∀ a, (v a).array.grid = c.array.grid) (dt : ℝ) :
    ∃ r, advectVanLeerUsingLimiters c v dt = .ok r ∧ r.offset = c.array.offset ∧ r.grid = c.array.grid ∧ r.shape = c.array.shape ∧
      r.toNArr.sum = 0 ∧
      ((∃ k, ∀ i, InR c.array.shape i → c.array.data i = k) → (∀ a, ∃ k, ∀ i, InR c.array.shape i → (v a).array.data i = k) →
        ∀ i, InR c.array.shape i → r.data i = 0) := by
  have hsh : ∀ a, (v a).array.shape = c.array.shape := fun a => by
    funext b
    rw [((hv a).2 b).1, hg a, (hc.2 b).1]
  choose f hf _ using fun a => linear_periodic (fun _ _ => True) (fun _ _ _ _ _ => trivial) (hv a) (upperFace c a) trivial
  have hav : StaggeredPeriodic c fun a => ⟨⟨⟨(v a).array.shape, f a⟩, upperFace c a, (v a).array.grid⟩, (v a).bc⟩ :=
    fun a => ⟨(hv a).mk' (fun _ => rfl) rfl rfl, hcls a, hsh a, hg a, rfl⟩
  have heq : advectVanLeerUsingLimiters c v dt = advectVanLeerUsingLimiters c
      (fun a => ⟨⟨⟨(v a).array.shape, f a⟩, upperFace c a, (v a).array.grid⟩, (v a).bc⟩) dt := by
    unfold advectVanLeerUsingLimiters advectGeneral
    rw [if_pos (hasAllPeriodic_of hc.1), if_pos (hasAllPeriodic_of hc.1),
      seqFin_ok (fun a => linearFn (v a) (controlVolumeOffsets c.array a) v dt)
        (fun a => (⟨⟨⟨(v a).array.shape, f a⟩, upperFace c a, (v a).array.grid⟩, (v a).bc⟩ : GridVariable d ℝ)) (fun a => by
        unfold linearFn
        rw [controlVolumeOffsets_eq]
        exact hf a),
      seqFin_ok (fun a : Fin d => linearFn (⟨⟨⟨(v a).array.shape, f a⟩, upperFace c a, (v a).array.grid⟩, (v a).bc⟩ : GridVariable d ℝ)
        (controlVolumeOffsets c.array a)
        (fun a => (⟨⟨⟨(v a).array.shape, f a⟩, upperFace c a, (v a).array.grid⟩, (v a).bc⟩ : GridVariable d ℝ)) dt)
        (fun a => (⟨⟨⟨(v a).array.shape, f a⟩, upperFace c a, (v a).array.grid⟩, (v a).bc⟩ : GridVariable d ℝ)) (fun a => by
        unfold linearFn
        rw [controlVolumeOffsets_eq]
        exact linear_skip _ _ (fun b => rfl))]
  rw [heq]
  obtain ⟨-, -, r, hr, ho, hs⟩ := C27_schemes_conserve hd c hc _ hav dt
  obtain ⟨L, U, W, -, -, -, h⟩ := schemes_staggered hd hc hav dt
  have h3 := h (false, false) _ rfl
  simp only [Bool.false_eq_true, if_false] at h3
  rw [hr] at h3
  have h3' := Except.ok.inj h3
  refine ⟨r, hr, ho, by rw [h3'], by rw [h3'], hs, fun ⟨k, hk⟩ hvk i hi => ?_⟩
  obtain ⟨dv, hdv, -, -, r', hr', -, he⟩ := C28_constant hd c hc _ hav dt k hk
  rw [hr] at hr'
  injection hr' with hr'
  subst hr'
  rw [he i hi]
  rw [divergence_staggered hd hav] at hdv
  injection hdv with hdv
  subst hdv
  have hfk : ∀ a, ∃ k, ∀ i, InR c.array.shape i → f a i = k := fun a => by
    obtain ⟨k, hk⟩ := hvk a
    obtain ⟨r, hr, -, h⟩ := C23_constants (v a) (hv a) (upperFace c a) k (by rw [hsh a]; exact hk)
    rw [hf a] at hr
    injection hr with hr
    subst hr
    exact ⟨k, by rw [hsh a] at h; exact h⟩
  dsimp only
  rw [Finset.sum_eq_zero, mul_zero]
  intro a _
  obtain ⟨k, hk⟩ := hfk a
  rw [hk i hi, hk _ (rollIdx_inR hi a (-1)), sub_self, zero_div]

end JaxCfd
