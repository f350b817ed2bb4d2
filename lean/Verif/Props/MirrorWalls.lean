import Verif.SpecMirror
import Verif.Props.Mirror
import Verif.Props.PermutationWalls

/-!
# C78: reflections of flows between walls — differences, diffusion, divergence, projection
-/

namespace JaxCfd
variable {d : ℕ} {ax : Fin d}

section
variable {s : Fin d → ℕ}

theorem wallMirrorIdx_self (m : ℤ) (i : Idx d) : wallMirrorIdx s ax m i ax = s ax - m - i ax := Function.update_self ..

theorem wallMirrorIdx_of_ne (m : ℤ) (i : Idx d) {b : Fin d} (hb : b ≠ ax) : wallMirrorIdx s ax m i b = i b := Function.update_of_ne hb ..

theorem wallMirrorIdx_update (m x : ℤ) (i : Idx d) : wallMirrorIdx s ax m (Function.update i ax x) = Function.update (wallMirrorIdx s ax m i) ax (s ax - m - x) := by
  unfold wallMirrorIdx
  rw [Function.update_self, Function.update_idem, Function.update_idem]

theorem wallMirrorIdx_update_of_ne {b : Fin d} (hb : b ≠ ax) (m x : ℤ) (i : Idx d) : wallMirrorIdx s ax m (Function.update i b x) = Function.update (wallMirrorIdx s ax m i) b x := by
  unfold wallMirrorIdx
  rw [Function.update_of_ne hb.symm, Function.update_comm hb.symm]

theorem wallMirrorIdx_inR {i : Idx d} (hi : InR s i) {m : ℤ} (h0 : 0 ≤ s ax - m - i ax) (h1 : s ax - m - i ax < s ax) : InR s (wallMirrorIdx s ax m i) := hi.update ax h0 h1

theorem wallMirrorIdx_one_inR {i : Idx d} (hi : InR s i) : InR s (wallMirrorIdx s ax 1 i) := by
  have := hi ax
  exact wallMirrorIdx_inR hi (by omega) (by omega)

theorem wallMirrorIdx_roll_of_ne {b : Fin d} (hb : b ≠ ax) (m k : ℤ) (i : Idx d) : wallMirrorIdx s ax m (rollIdx s b k i) = rollIdx s b k (wallMirrorIdx s ax m i) := by
  unfold rollIdx
  rw [wallMirrorIdx_update_of_ne hb, wallMirrorIdx_of_ne m i hb]

/-- **C78** `wallMirrorIdx` is the reflection of positions in the middle of the box: the coordinates along `ax` of a point and of its image add up to the sum of the coordinates of the two walls; the
others agree. -/
theorem C78_wall_mirror_position (g : Grid d ℝ) (hg : g.Valid) (o : Fin d → ℚ) (m : ℤ) (hm : (m : ℚ) = 2 * o ax) (i : Idx d) :
    g.position o i ax + g.position o (wallMirrorIdx g.shape ax m i) ax = (g.domain ax).1 + (g.domain ax).2 ∧
      ∀ b, b ≠ ax → g.position o (wallMirrorIdx g.shape ax m i) b = g.position o i b := by
  refine ⟨?_, fun b hb => by unfold Grid.position; rw [wallMirrorIdx_of_ne m i hb]⟩
  have hn : ((g.shape ax : ℕ) : ℝ) ≠ 0 := by have := (hg ax).1; positivity
  have hL : (g.domain ax).2 = (g.domain ax).1 + g.shape ax * g.step ax := by
    unfold Grid.step
    field_simp
    ring
  have hm' : (m : ℝ) = 2 * (o ax : ℝ) := by exact_mod_cast congrArg (fun q : ℚ => (q : ℝ)) hm
  unfold Grid.position
  rw [wallMirrorIdx_self, hL]
  push_cast
  rw [hm']
  ring

end

section
variable [HasNan ℝ] {u v : GridVariable d ℝ} {σ : ℝ}

namespace GridVariable.WallMirrored

theorem supported (h : u.WallMirrored ax σ v) (hu : u.Supported) : v.Supported := fun a => by
  obtain ⟨-, ⟨ht, -⟩, ho, hg, hs, -⟩ := h
  obtain ⟨h1, h2, h3⟩ := hu a
  refine ⟨by rw [hs, hg]; exact h1, by rw [hg]; exact h2, ?_⟩
  rw [ht a, ho]
  by_cases ha : a = ax
  · rw [if_pos ha]
    rcases h3 with e | ⟨e1, e2, e3⟩ | ⟨e1, e2⟩
    · exact Or.inl (by rw [e]; rfl)
    · exact Or.inr (Or.inl ⟨e2, e1, e3⟩)
    · exact Or.inr (Or.inr ⟨by rw [e1]; rfl, e2⟩)
  · rw [if_neg ha]; exact h3

/-- What the neighbours along the normal of the mirror see is exchanged. -/
theorem along (h : u.WallMirrored ax σ v) (hu : u.Supported) {m : ℤ} (hm : (m : ℚ) = 2 * u.array.offset ax) {i : Idx d} (hi : InR u.array.shape i) (hj : InR u.array.shape (wallMirrorIdx u.array.shape ax m i)) :
    v.above ax i = σ * u.below ax (wallMirrorIdx u.array.shape ax m i) ∧ v.below ax i = σ * u.above ax (wallMirrorIdx u.array.shape ax m i) := by
  obtain ⟨hp, ⟨ht, -, hc⟩, ho, hg, hs, m', hm', hd⟩ := h
  obtain rfl : m = m' := by exact_mod_cast hm.trans hm'.symm
  have hi1 := hi ax
  have hj1 := hj ax
  rw [wallMirrorIdx_self] at hj1
  have hup : ∀ x : ℤ, 0 ≤ x → x < u.array.shape ax → 0 ≤ u.array.shape ax - m - x → u.array.shape ax - m - x < u.array.shape ax →
      v.array.data (Function.update i ax x) = σ * u.array.data (Function.update (wallMirrorIdx u.array.shape ax m i) ax (u.array.shape ax - m - x)) := fun x h0 h1 h2 h3 => by
    rw [hd _ (hi.update ax h0 h1) (by rw [wallMirrorIdx_update]; exact hj.update ax h2 h3), wallMirrorIdx_update]
  have e0 := hd i hi hj
  have et : v.bc.types ax = (u.bc.types ax).swap := by rw [ht, if_pos rfl]
  unfold GridVariable.above GridVariable.below
  rw [et, ho, hs, hg, hc, wallMirrorIdx_self, e0]
  dsimp only [Prod.swap]
  rcases (hu ax).2.2 with e | ⟨e1, e2, e3⟩ | ⟨e1, e2⟩
  · exact absurd e hp
  · have hm1 : m = 1 := by
      have : (m : ℚ) = 1 := by rw [hm, e3]; norm_num
      exact_mod_cast this
    subst hm1
    have n1 : (u.bc.types ax).1 ≠ .periodic := by rcases e1 with e | e <;> rw [e] <;> decide
    have n2 : (u.bc.types ax).2 ≠ .periodic := by rcases e2 with e | e <;> rw [e] <;> decide
    rw [if_neg n1, if_neg n2, if_neg n2, if_neg n1, if_pos e3, if_pos e3, if_pos e3, if_pos e3]
    constructor
    · by_cases hl : i ax + 1 < u.array.shape ax
      · rw [if_pos hl, if_pos (by omega), hup _ (by omega) hl (by omega) (by omega)]
        congr 3
        omega
      · rw [if_neg hl, if_neg (show ¬ (0 < (u.array.shape ax : ℤ) - 1 - i ax) by omega)]
        rcases e1 with e | e <;> simp only [e, wallSign, if_true, reduceCtorEq, if_false] <;> ring
    · by_cases hl : 0 < i ax
      · rw [if_pos hl, if_pos (by omega), hup _ (by omega) (by omega) (by omega) (by omega)]
        congr 3
        omega
      · rw [if_neg hl, if_neg (show ¬ ((u.array.shape ax : ℤ) - 1 - i ax + 1 < u.array.shape ax) by omega)]
        rcases e2 with e | e <;> simp only [e, wallSign, if_true, reduceCtorEq, if_false] <;> ring
  · have hm2 : m = 2 := by
      have : (m : ℚ) = 2 := by rw [hm, e2]; norm_num
      exact_mod_cast this
    subst hm2
    have hh : ¬ (u.array.offset ax = 1 / 2) := by rw [e2]; norm_num
    rw [e1]
    dsimp only
    simp only [reduceCtorEq, if_false, if_neg hh, wallSign]
    constructor
    · by_cases hl : i ax + 2 < u.array.shape ax
      · rw [if_pos hl, if_pos (by omega), hup _ (by omega) (by omega) (by omega) (by omega)]
        congr 3
        omega
      · rw [if_neg hl, if_neg (by omega)]
    · by_cases hl : 0 < i ax
      · rw [if_pos hl, if_pos (by omega), hup _ (by omega) (by omega) (by omega) (by omega)]
        congr 3
        omega
      · rw [if_neg hl, if_neg (by omega)]

/-- The neighbours along the other axes see the mirror images. -/
theorem across (h : u.WallMirrored ax σ v) (hu : u.Supported) {m : ℤ} (hm : (m : ℚ) = 2 * u.array.offset ax) {b : Fin d} (hb : b ≠ ax) {i : Idx d} (hi : InR u.array.shape i)
    (hj : InR u.array.shape (wallMirrorIdx u.array.shape ax m i)) :
    v.above b i = σ * u.above b (wallMirrorIdx u.array.shape ax m i) ∧ v.below b i = σ * u.below b (wallMirrorIdx u.array.shape ax m i) := by
  obtain ⟨-, ⟨ht, hc, -⟩, ho, hg, hs, m', hm', hd⟩ := h
  obtain rfl : m = m' := by exact_mod_cast hm.trans hm'.symm
  have hi1 := hi b
  have hup : ∀ x : ℤ, 0 ≤ x → x < u.array.shape b → v.array.data (Function.update i b x) = σ * u.array.data (Function.update (wallMirrorIdx u.array.shape ax m i) b x) := fun x h0 h1 => by
    rw [hd _ (hi.update b h0 h1) (by rw [wallMirrorIdx_update_of_ne hb]; exact hj.update b h0 h1), wallMirrorIdx_update_of_ne hb]
  have hpos : ∀ c, 0 < u.array.shape c := fun c => by have := hi c; omega
  have hroll : ∀ k : ℤ, v.array.data (rollIdx u.array.shape b k i) = σ * u.array.data (rollIdx u.array.shape b k (wallMirrorIdx u.array.shape ax m i)) := fun k => by
    rw [hd _ (rollIdx_inR hi b k) (by rw [wallMirrorIdx_roll_of_ne hb]; exact rollIdx_inR hj b k), wallMirrorIdx_roll_of_ne hb]
  have e0 := hd i hi hj
  have et : v.bc.types b = u.bc.types b := by rw [ht, if_neg hb]
  unfold GridVariable.above GridVariable.below
  rw [et, ho, hs, hg, wallMirrorIdx_of_ne m i hb, e0, hroll, hroll]
  by_cases hp : u.bc.types b = (.periodic, .periodic)
  · rw [hp]
    simp only [if_true, and_self]
  · rw [hc b hb hp]
    have n1 : (u.bc.types b).1 ≠ .periodic := by
      rcases (hu b).2.2 with e | ⟨e | e, -⟩ | ⟨e, -⟩
      · exact absurd e hp
      all_goals rw [e]; decide
    have n2 : (u.bc.types b).2 ≠ .periodic := by
      rcases (hu b).2.2 with e | ⟨-, e | e, -⟩ | ⟨e, -⟩
      · exact absurd e hp
      all_goals rw [e]; decide
    rw [if_neg n1, if_neg n2, if_neg n2, if_neg n1]
    constructor
    · split_ifs with h1 h2 h3 h4
      · exact hup _ (by omega) h2
      · ring
      · ring
      · exact hup _ (by omega) (by omega)
      · rfl
    · split_ifs with h1 h2 h3
      · exact hup _ (by omega) (by omega)
      · ring
      · ring
      · rfl

end GridVariable.WallMirrored

/-- **C78** Diffusion of a quantity between two walls: at every point whose mirror image is stored, the Laplacian and the explicit diffusion of the mirror image are the mirror images. -/
theorem C78_wall_diffuse (h : u.WallMirrored ax σ v) (hu : u.Supported) (nu : ℝ) (m : ℤ) (hm : (m : ℚ) = 2 * u.array.offset ax) :
    ∃ r r' k k', laplacian u = .ok r ∧ laplacian v = .ok r' ∧ diffuse u nu = .ok k ∧ diffuse v nu = .ok k' ∧
      r.shape = u.array.shape ∧ r'.shape = u.array.shape ∧ r.grid = u.array.grid ∧ r'.grid = u.array.grid ∧ r.offset = u.array.offset ∧ r'.offset = u.array.offset ∧
      ∀ i, InR u.array.shape i → InR u.array.shape (wallMirrorIdx u.array.shape ax m i) →
        r'.data i = σ * r.data (wallMirrorIdx u.array.shape ax m i) ∧ k'.data i = σ * k.data (wallMirrorIdx u.array.shape ax m i) := by
  obtain ⟨r, hr, hrs, hro, hrg, hrd⟩ := laplacian_supported' hu
  obtain ⟨r', hr', hrs', hro', hrg', hrd'⟩ := laplacian_supported' (h.supported hu)
  refine ⟨r, r', _, _, hr, hr', by unfold diffuse; rw [hr]; rfl, by unfold diffuse; rw [hr']; rfl, hrs, hrs'.trans h.2.2.2.2.1, hrg, hrg'.trans h.2.2.2.1, hro, hro'.trans h.2.2.1, fun i hi hj => ?_⟩
  have e : r'.data i = σ * r.data (wallMirrorIdx u.array.shape ax m i) := by
    rw [hrd' i (by rw [h.2.2.2.2.1]; exact hi), hrd _ hj, Finset.mul_sum]
    refine Finset.sum_congr rfl fun b _ => ?_
    obtain ⟨m', hm', hd⟩ := h.2.2.2.2.2
    obtain rfl : m = m' := by exact_mod_cast hm.trans hm'.symm
    rw [hd i hi hj, h.2.2.2.1]
    by_cases hb : b = ax
    · subst hb
      rw [(h.along hu hm hi hj).1, (h.along hu hm hi hj).2]
      ring
    · rw [(h.across hu hm hb hi hj).1, (h.across hu hm hb hi hj).2]
      ring
  refine ⟨e, ?_⟩
  show nu * r'.data i = σ * (nu * r.data _)
  rw [e]
  ring

end

section
variable [HasNan ℝ] {g : Grid d ℝ} {u v : Fin d → GridVariable d ℝ}

theorem VelocityField.wallMirrored (h : FieldWallMirrored ax u v) (hu : VelocityField g u) : VelocityField g v := by
  have hn : ∀ c, (u c).bc.types ax ≠ (.periodic, .periodic) := fun c => (h c).1
  refine ⟨hu.1, fun a => ⟨(h a).2.2.2.1.trans (hu.2.1 a).1, (h a).2.2.2.2.1.trans (hu.2.1 a).2.1, fun b => by rw [(h a).2.2.1]; exact (hu.2.1 a).2.2 b⟩, fun b => ?_⟩
  have e : ∀ c, (v c).bc.types b = if b = ax then ((u c).bc.types b).swap else (u c).bc.types b := fun c => (h c).2.1.1 b
  simp only [e]
  by_cases hb : b = ax
  · subst hb
    simp only [if_true]
    rcases hu.2.2 b with hp | ⟨h1, h2⟩
    · exact absurd (hp b) (hn b)
    · exact Or.inr ⟨by rw [h1]; rfl, fun c => ⟨(h2 c).2, (h2 c).1⟩⟩
  · simp only [hb, if_false]
    exact hu.2.2 b

/-- Between the walls of the mirrored axis the normal component is given on faces and known on both walls. -/
theorem FieldWallMirrored.normal (h : FieldWallMirrored ax u v) (hu : VelocityField g u) (hw : WallsStored u) (hw' : WallsStored v) {i : Idx d} (hi : InR g.shape i) :
    (v ax).array.data i = -(u ax).below ax (wallMirrorIdx g.shape ax 1 i) ∧ (v ax).below ax i = -(u ax).array.data (wallMirrorIdx g.shape ax 1 i) := by
  have hv := hu.wallMirrored h
  obtain ⟨hp, ⟨ht, -, hc⟩, ho, -, hs, m, hm, hd⟩ := h ax
  have hus := (hu.2.1 ax).2.1
  have hvs := (hv.2.1 ax).2.1
  have huo : (u ax).array.offset ax = 1 := by rw [(hu.2.1 ax).2.2, if_pos rfl]
  have hdir : (u ax).bc.types ax = (.dirichlet, .dirichlet) := by
    rcases hu.2.2 ax with e | ⟨e, -⟩
    · exact absurd (e ax) hp
    · exact e
  have hdir' : (v ax).bc.types ax = (.dirichlet, .dirichlet) := by rw [ht, if_pos rfl, hdir]; rfl
  have hm2 : m = 2 := by
    have : (m : ℚ) = 2 := by rw [hm, huo]; norm_num
    exact_mod_cast this
  subst hm2
  rw [hus] at hd
  have hs1 : mirrorSign ax ax = -1 := if_pos rfl
  rw [hs1] at hd hc
  rw [hdir] at hc
  have hi1 := hi ax
  have hj : InR g.shape (wallMirrorIdx g.shape ax 1 i) := wallMirrorIdx_one_inR hi
  have hb : ∀ w : GridVariable d ℝ, w.bc.types ax = (.dirichlet, .dirichlet) → w.array.offset ax = 1 → ∀ j : Idx d,
      w.below ax j = if 0 < j ax then w.array.data (Function.update j ax (j ax - 1)) else (w.bc.constantValues ax).1 := fun w h1 h2 j => by
    unfold GridVariable.below
    rw [h1, h2, if_neg (by decide)]
    norm_num
  rw [hb _ hdir huo, hb _ hdir' (by rw [ho]; exact huo), hc, wallMirrorIdx_self]
  simp only [wallSign]
  constructor
  · by_cases hl : i ax + 1 < g.shape ax
    · rw [if_pos (by omega), hd i hi (wallMirrorIdx_inR hi (by omega) (by omega)), neg_one_mul]
      congr 2
      unfold wallMirrorIdx
      rw [Function.update_idem]
      congr 1
      omega
    · rw [if_neg (by omega), hw' ax i (by rw [hvs]; exact hi) hdir' (by rw [hvs]; omega), hc]
      simp only [wallSign, neg_one_mul]
  · by_cases hl : 0 < i ax
    · rw [if_pos hl, hd _ (hi.update ax (by omega) (by omega)) (wallMirrorIdx_inR (hi.update ax (by omega) (by omega)) (by rw [Function.update_self]; omega) (by rw [Function.update_self]; omega)), neg_one_mul, wallMirrorIdx_update]
      congr 2
      unfold wallMirrorIdx
      rw [Function.update_idem]
      congr 1
      omega
    · rw [if_neg hl, hw ax _ (by rw [hus]; exact hj) hdir (by rw [hus, wallMirrorIdx_self]; omega)]
      simp only [neg_one_mul]

/-- The other components. -/
theorem FieldWallMirrored.tangential (h : FieldWallMirrored ax u v) (hu : VelocityField g u) {a : Fin d} (ha : a ≠ ax) {i : Idx d} (hi : InR g.shape i) :
    (v a).array.data i = (u a).array.data (wallMirrorIdx g.shape ax 1 i) ∧ (v a).below a i = (u a).below a (wallMirrorIdx g.shape ax 1 i) := by
  have hus := (hu.2.1 a).2.1
  have hm : ((1 : ℤ) : ℚ) = 2 * (u a).array.offset ax := by rw [(hu.2.1 a).2.2, if_neg fun e => ha e.symm]; norm_num
  have hs1 : mirrorSign ax a = 1 := if_neg ha
  have hh := h a
  rw [hs1] at hh
  have hj : InR g.shape (wallMirrorIdx g.shape ax 1 i) := wallMirrorIdx_one_inR hi
  have e2 := (hh.across (hu.supported a) hm ha (i := i) (by rw [hus]; exact hi) (by rw [hus]; exact hj)).2
  obtain ⟨m, hm', hd⟩ := hh.2.2.2.2.2
  obtain rfl : (1 : ℤ) = m := by exact_mod_cast hm.trans hm'.symm
  rw [hus] at hd e2
  exact ⟨by rw [hd i hi hj, one_mul], by rw [e2, one_mul]⟩

/-- **C78** The divergence of a flow between two walls, in a box whose other axes are periodic or closed by walls: the mirror image has the mirrored divergence, in every cell. -/
theorem C78_wall_divergence (hd : d ≠ 0) (h : FieldWallMirrored ax u v) (hu : VelocityField g u) (hw : WallsStored u) (hw' : WallsStored v) :
    ∃ D D', divergence (List.ofFn u) = .ok D ∧ divergence (List.ofFn v) = .ok D' ∧ D.shape = g.shape ∧ D'.shape = g.shape ∧ ∀ i, InR g.shape i → D'.data i = D.data (wallMirrorIdx g.shape ax 1 i) := by
  obtain ⟨f, hf, hfd⟩ := hu.divergence_eq hd
  obtain ⟨f', hf', hfd'⟩ := (hu.wallMirrored h).divergence_eq hd
  refine ⟨_, _, hf, hf', rfl, rfl, fun i hi => ?_⟩
  dsimp only
  rw [hfd' i hi, hfd _ (wallMirrorIdx_one_inR hi)]
  refine Finset.sum_congr rfl fun a _ => ?_
  by_cases ha : a = ax
  · subst ha
    rw [(h.normal hu hw hw' hi).1, (h.normal hu hw hw' hi).2]
    ring
  · rw [(h.tangential hu ha hi).1, (h.tangential hu ha hi).2]

theorem FieldWallMirrored.pbc_eq (h : FieldWallMirrored ax u v) (hu : VelocityField g u) : VelocityField.pbc v = VelocityField.pbc u := by
  unfold VelocityField.pbc
  congr 1
  funext b
  rw [(h b).2.1.1 b]
  by_cases hb : b = ax
  · subst hb
    have hp := (h b).1
    rw [if_pos rfl, if_neg hp, if_neg fun e => hp (by rw [← Prod.swap_swap ((u b).bc.types b), e]; rfl)]
  · rw [if_neg hb]

/-- The mirror image of a pressure. -/
theorem FieldWallMirrored.pvar_mirrored (h : FieldWallMirrored ax u v) (hu : VelocityField g u) {q q' : Idx d → ℝ} (hq : ∀ i, InR g.shape i → q' i = q (wallMirrorIdx g.shape ax 1 i)) :
    (VelocityField.pvar g u q).WallMirrored ax 1 (VelocityField.pvar g v q') := by
  have hp := (h ax).1
  have hpt : (VelocityField.pbc u).types ax = (.neumann, .neumann) := by
    unfold VelocityField.pbc homogeneousBC
    exact if_neg hp
  refine ⟨by show (VelocityField.pbc u).types ax ≠ _; rw [hpt]; decide, ?_, rfl, rfl, rfl, 1, ?_, fun i hi _ => ?_⟩
  · show (VelocityField.pbc u).WallMirrored ax 1 (VelocityField.pbc v)
    rw [h.pbc_eq hu]
    have hc : ∀ c, (VelocityField.pbc u).constantValues c = (0, 0) := fun c => by
      unfold VelocityField.pbc homogeneousBC BC.constantValues
      simp
    refine ⟨fun c => ?_, fun c _ _ => by rw [hc]; simp, by rw [hc]; simp⟩
    by_cases hcx : c = ax
    · subst hcx; rw [if_pos rfl, hpt]; rfl
    · rw [if_neg hcx]
  · show ((1 : ℤ) : ℚ) = 2 * (1 / 2)
    norm_num
  · rw [one_mul]
    exact hq i hi

/-- A projection that subtracts the gradient of the mirrored pressure. -/
theorem projection_wallMirrored (hd : d ≠ 0) (h : FieldWallMirrored ax u v) (hu : VelocityField g u) (hw : WallsStored u) (hw' : WallsStored v) {solve solve' : PressureSolver d ℝ} {bc bc' : BC d ℝ}
    {q q' : GridArray d ℝ} (hq : Returns solve g u bc q) (hq' : Returns solve' g v bc' q') (hqq : ∀ i, InR g.shape i → q'.data i = q.data (wallMirrorIdx g.shape ax 1 i)) :
    ∃ w w', projection u solve = .ok w ∧ projection v solve' = .ok w' ∧ FieldWallMirrored ax w w' := by
  have hv := hu.wallMirrored h
  obtain ⟨x, hx, hxd⟩ := hu.projection_eq hd hw hq
  obtain ⟨x', hx', hxd'⟩ := hv.projection_eq hd hw' hq'
  refine ⟨_, _, hx, hx', fun a => ⟨(h a).1, (h a).2.1, (h a).2.2.1, rfl, rfl, ?_⟩⟩
  obtain ⟨m, hm, hmd⟩ := (h a).2.2.2.2.2
  rw [(hu.2.1 a).2.1] at hmd
  refine ⟨m, hm, fun i hi hj => ?_⟩
  replace hi : InR g.shape i := hi
  replace hj : InR g.shape (wallMirrorIdx g.shape ax m i) := hj
  show x' a i = _ * x a (wallMirrorIdx g.shape ax m i)
  rw [hxd' a i hi, hxd a _ hj, hmd i hi hj, mul_sub]
  congr 1
  have hP := h.pvar_mirrored hu hqq
  have hPs := (hu.pvar_centered q.data).1
  have h1 : ((1 : ℤ) : ℚ) = 2 * (VelocityField.pvar g u q.data).array.offset ax := by show ((1 : ℤ) : ℚ) = 2 * (1 / 2); norm_num
  have hj1 : InR g.shape (wallMirrorIdx g.shape ax 1 i) := wallMirrorIdx_one_inR hi
  unfold VelocityField.grad
  by_cases ha : a = ax
  · subst ha
    have hm2 : m = 2 := by
      have : (m : ℚ) = 2 := by rw [hm, (hu.2.1 a).2.2, if_pos rfl]; norm_num
      exact_mod_cast this
    subst hm2
    have hi1 := hi a
    have hj2 := hj a
    rw [wallMirrorIdx_self] at hj2
    have hp : ¬ (u a).bc.types a = (.periodic, .periodic) := (h a).1
    have hal : (VelocityField.pvar g v q'.data).above a i = 1 * (VelocityField.pvar g u q.data).below a (wallMirrorIdx g.shape a 1 i) := (hP.along hPs h1 (i := i) hi hj1).1
    rw [hal, hqq i hi, one_mul, VelocityField.pvar_above, VelocityField.pvar_below, if_neg hp, if_neg hp, wallMirrorIdx_self, wallMirrorIdx_self, if_pos (by omega), if_pos (by omega),
      show mirrorSign a a = -1 from if_pos rfl]
    have e1 : Function.update (wallMirrorIdx g.shape a 1 i) a ((g.shape a : ℤ) - 1 - i a - 1) = wallMirrorIdx g.shape a 2 i := by
      unfold wallMirrorIdx
      rw [Function.update_idem]
      congr 1
      omega
    have e2 : Function.update (wallMirrorIdx g.shape a 2 i) a ((g.shape a : ℤ) - 2 - i a + 1) = wallMirrorIdx g.shape a 1 i := by
      unfold wallMirrorIdx
      rw [Function.update_idem]
      congr 1
      omega
    rw [e1, e2]
    ring
  · have hm1 : m = 1 := by
      have : (m : ℚ) = 1 := by rw [hm, (hu.2.1 a).2.2, if_neg fun e => ha e.symm]; norm_num
      exact_mod_cast this
    subst hm1
    rw [(hP.across hPs h1 ha (i := i) hi hj1).1, hqq i hi, one_mul, show mirrorSign ax a = 1 from if_neg ha, one_mul]
    rfl

/-- **C78** With pressure solvers that solve the pressure equations of the flow and of its mirror image — however they compute the solution — the projection of the mirror image is the mirror image
of the projection. -/
theorem C78_wall_projection (hd : d ≠ 0) (g : Grid d ℝ) {u v : Fin d → GridVariable d ℝ} (hu : VelocityField g u) (hw : WallsStored u) (hw' : WallsStored v) (h : FieldWallMirrored ax u v)
    (solve solve' : PressureSolver d ℝ) {bc bc' : BC d ℝ} {q q' : GridArray d ℝ} (hq : Returns solve g u bc q) (hsol : SolvesPoisson u bc q) (hq' : Returns solve' g v bc' q') (hsol' : SolvesPoisson v bc' q') :
    ∃ w w', projection u solve = .ok w ∧ projection v solve' = .ok w' ∧ FieldWallMirrored ax w w' := by
  have hv := hu.wallMirrored h
  obtain rfl : VelocityField.pbc u = bc := Except.ok.inj ((hu.pressureBC hd).symm.trans hq.1)
  have hb' : bc' = VelocityField.pbc u := (Except.ok.inj (hq'.1.symm.trans (hv.pressureBC hd))).trans (h.pbc_eq hu)
  subst hb'
  set qm : GridArray d ℝ := ⟨⟨g.shape, fun i => q.data (wallMirrorIdx g.shape ax 1 i)⟩, fun _ => 1 / 2, g⟩ with hqm
  have hret : Returns (fun _ _ _ => .ok qm) g v (VelocityField.pbc u) qm := ⟨hq'.1, fun _ _ => rfl, rfl, rfl, rfl⟩
  have hqe : q = (VelocityField.pvar g u q.data).array := by
    obtain ⟨-, -, h1, h2, h3⟩ := hq
    obtain ⟨⟨qs, qd⟩, qo, qg⟩ := q
    simp only at h1 h2 h3
    subst h1 h2 h3
    rfl
  have hqu : (⟨q, VelocityField.pbc u⟩ : GridVariable d ℝ) = VelocityField.pvar g u q.data := by
    rw [hqe]
    rfl
  have hqv : (⟨qm, VelocityField.pbc u⟩ : GridVariable d ℝ) = VelocityField.pvar g v qm.data := by
    unfold VelocityField.pvar
    rw [h.pbc_eq hu]
  obtain ⟨L, D, hL, hD, hLD⟩ := hsol
  obtain ⟨L1, L', k, k', hL1, hL', -, -, hLs, hLs', -, -, -, -, hLL⟩ := C78_wall_diffuse (h.pvar_mirrored hu (q := q.data) (q' := qm.data) fun i _ => rfl) (hu.pvar_centered q.data).1 1 1
    (by show ((1 : ℤ) : ℚ) = 2 * (1 / 2); norm_num)
  rw [hqu] at hL
  obtain rfl := Except.ok.inj (hL.symm.trans hL1)
  obtain ⟨D1, D', hD1, hD', hDs, hDs', hDD⟩ := C78_wall_divergence hd h hu hw hw'
  obtain rfl := Except.ok.inj (hD.symm.trans hD1)
  have hsol2 : SolvesPoisson v (VelocityField.pbc u) qm := ⟨L', D', by rw [hqv]; exact hL', hD', fun i hi => by
    have hi' : InR g.shape i := hi
    have hj : InR g.shape (wallMirrorIdx g.shape ax 1 i) := wallMirrorIdx_one_inR hi'
    rw [hDD i hi', ← hLD _ (by rw [hq.2.2.1]; exact hj), (hLL i hi' hj).1, one_mul]
    rfl⟩
  obtain ⟨w, w1, hw1, hw2, hww⟩ := projection_wallMirrored hd h hu hw hw' hq hret fun i _ => rfl
  obtain ⟨y, w', hy, hwy, hyw⟩ := C33_solver_independent hd g v hv hw' _ solve' _ _ _ _ hret hsol2 hq' hsol'
  obtain rfl := Except.ok.inj (hw2.symm.trans hy)
  refine ⟨w, w', hw1, hwy, fun a => ⟨(hww a).1, by rw [(hyw a).1]; exact (hww a).2.1, (hyw a).2.1.trans (hww a).2.2.1, (hyw a).2.2.1.trans (hww a).2.2.2.1, (hyw a).2.2.2.1.trans (hww a).2.2.2.2.1, ?_⟩⟩
  obtain ⟨m, hm, hmd⟩ := (hww a).2.2.2.2.2
  refine ⟨m, hm, fun i hi hj => ?_⟩
  rw [(hyw a).2.2.2.2.2 i (by rw [← (hyw a).2.2.2.2.1, (hww a).2.2.2.2.1]; exact hi)]
  exact hmd i hi hj

/-- **C78** In a closed box with any mixture of walls and periodic directions the projection with its default solver commutes with the reflection. -/
theorem C78_wall_default_projection (hd : d ≠ 0) (g : Grid d ℝ) {u v : Fin d → GridVariable d ℝ} (hu : VelocityField g u) (hw : WallsStored u) (hw' : WallsStored v) (h : FieldWallMirrored ax u v)
    (hclosed : ∀ a, (u a).bc.types a = (.periodic, .periodic) ∨ (u a).bc.bcValues a = (some 0, some 0)) (hclosed' : ∀ a, (v a).bc.types a = (.periodic, .periodic) ∨ (v a).bc.bcValues a = (some 0, some 0))
    (cutoff : ℝ) (hr : Resolved g cutoff) (eigh : EighFn ℝ) (heigh : ∀ m, m.Symmetric → IsEigh m (eigh m)) (tpu : Bool) :
    ∃ w w', projection u (defaultSolver tpu eigh cutoff) = .ok w ∧ projection v (defaultSolver tpu eigh cutoff) = .ok w' ∧ FieldWallMirrored ax w w' := by
  obtain ⟨bc, q, hq, hs⟩ := default_solves_closed hd g u hu hw hclosed cutoff hr eigh heigh tpu
  obtain ⟨bc', q', hq', hs'⟩ := default_solves_closed hd g v (hu.wallMirrored h) hw' hclosed' cutoff hr eigh heigh tpu
  exact C78_wall_projection hd g hu hw hw' h _ _ hq hs hq' hs'

/-- the mirror image of a velocity field between two walls normal to `ax` -/
noncomputable def wallMirrorImage (ax : Fin d) (u : Fin d → GridVariable d ℝ) (a : Fin d) : GridVariable d ℝ :=
  ⟨⟨⟨(u a).array.shape, fun i => if a = ax ∧ i a + 1 = (u a).array.shape a then -((u a).bc.constantValues a).1
      else mirrorSign ax a * (u a).array.data (wallMirrorIdx (u a).array.shape ax (if a = ax then 2 else 1) i)⟩, (u a).array.offset, (u a).array.grid⟩,
    ⟨(u a).bc.cls, fun c => if c = ax then ((u a).bc.types c).swap else (u a).bc.types c, fun c =>
      if c = ax then (some (wallSign (mirrorSign ax a) ((u a).bc.types ax).2 * ((u a).bc.constantValues ax).2), some (wallSign (mirrorSign ax a) ((u a).bc.types ax).1 * ((u a).bc.constantValues ax).1))
      else if (u a).bc.types c = (.periodic, .periodic) then (u a).bc.bcValues c
      else (some (mirrorSign ax a * ((u a).bc.constantValues c).1), some (mirrorSign ax a * ((u a).bc.constantValues c).2))⟩⟩

/-- **C78** Every flow between two walls has a mirror image, whose walls are stored if those of the flow are. -/
theorem C78_wall_mirror_image (g : Grid d ℝ) (ax : Fin d) (u : Fin d → GridVariable d ℝ) (hu : VelocityField g u) (hax : (u ax).bc.types ax ≠ (.periodic, .periodic)) :
    FieldWallMirrored ax u (wallMirrorImage ax u) ∧ (WallsStored u → WallsStored (wallMirrorImage ax u)) := by
  have hn : ∀ a, (u a).bc.types ax ≠ (.periodic, .periodic) := fun a => by
    rcases hu.2.2 ax with e | ⟨-, e⟩
    · exact absurd (e ax) hax
    · intro h
      rcases (e a).1 with e1 | e1 <;> rw [h] at e1 <;> cases e1
  have hdir : (u ax).bc.types ax = (.dirichlet, .dirichlet) := by
    rcases hu.2.2 ax with e | ⟨e, -⟩
    · exact absurd (e ax) hax
    · exact e
  constructor
  · intro a
    refine ⟨hn a, ⟨fun c => rfl, fun c hc hp => ?_, ?_⟩, rfl, rfl, rfl, if a = ax then 2 else 1, ?_, fun i hi hj => ?_⟩
    · unfold wallMirrorImage BC.constantValues
      dsimp only
      rw [if_neg hc, if_neg hp]
      rfl
    · unfold wallMirrorImage BC.constantValues
      dsimp only
      rw [if_pos rfl]
      rfl
    · rw [(hu.2.1 a).2.2]
      by_cases ha : a = ax
      · rw [if_pos ha, if_pos ha.symm]; norm_num
      · rw [if_neg ha, if_neg fun e => ha e.symm]; norm_num
    · refine if_neg fun e => ?_
      obtain ⟨rfl, e⟩ := e
      have := (hj a).1
      rw [wallMirrorIdx_self, if_pos rfl] at this
      omega
  · intro hw a i hi ht hl
    have hi' : InR (u a).array.shape i := hi
    by_cases ha : a = ax
    · subst ha
      refine (if_pos ⟨rfl, hl⟩).trans ?_
      unfold wallMirrorImage
      simp only [BC.constantValues, if_true]
      rw [hdir, show mirrorSign a a = -1 from if_pos rfl]
      simp only [wallSign, Option.getD_some, neg_one_mul]
    · have ht' : (u a).bc.types a = (.dirichlet, .dirichlet) := by
        have : (if a = ax then ((u a).bc.types a).swap else (u a).bc.types a) = (.dirichlet, .dirichlet) := ht
        rwa [if_neg ha] at this
      refine (if_neg fun e => ha e.1).trans ?_
      rw [show mirrorSign ax a = 1 from if_neg ha, one_mul, if_neg ha, hw a _ (wallMirrorIdx_one_inR hi') ht' (by rw [wallMirrorIdx_of_ne 1 i ha]; exact hl)]
      unfold wallMirrorImage
      simp only [BC.constantValues, if_neg ha, ht']
      rw [show mirrorSign ax a = 1 from if_neg ha]
      simp

namespace Fixtures

/-- The projection of the mirror image of the channel, in a mirror between its walls. -/
example : ∃ w w', projection chanR (defaultSolver false exists_eigh.choose (1 / 1000000)) = .ok w ∧ projection (wallMirrorImage 1 chanR) (defaultSolver false exists_eigh.choose (1 / 1000000)) = .ok w' ∧
    FieldWallMirrored 1 w w' := by
  obtain ⟨h, hw⟩ := C78_wall_mirror_image g34r 1 chanR chanR_field (by decide)
  refine C78_wall_default_projection (by norm_num) g34r chanR_field chanR_walls (hw chanR_walls) h (fun a => Or.inr rfl) (fun a => ?_) _ g34r_resolved _ exists_eigh.choose_spec false
  fin_cases a
  · exact Or.inl rfl
  · right
    simp [wallMirrorImage, chanR, BC.constantValues]

end Fixtures

end

end JaxCfd
