import Verif.Model.FiniteDifferences
import Verif.Lemmas.Boundaries
import Verif.Lemmas.Seq
import Verif.Lemmas.Unique
import Mathlib.Tactic.FieldSimp
import Mathlib.Algebra.BigOperators.Fin

set_option linter.unusedSectionVars false

namespace JaxCfd
variable {d : ℕ} {K : Type} [Field K] [HasNan K] [DecidableEq K]

theorem gmap2_eq_ok {f : K → K → K} {u v r : GridArray d K} :
    gmap2 f u v = .ok r ↔ u.shape = v.shape ∧ u.offset = v.offset ∧ u.grid = v.grid ∧
      r = ⟨⟨u.shape, fun i => f (u.data i) (v.data i)⟩, u.offset, u.grid⟩ := by
  unfold gmap2
  by_cases hs : u.shape = v.shape
  · rw [if_neg (by simpa using hs)]
    simp only [Except.bind_eq_ok, Except.pure_eq_ok]
    constructor
    · rintro ⟨o, ho, g, hg, h⟩
      obtain ⟨-, ho⟩ := uniqueOr_eq_ok.1 ho
      obtain ⟨-, hg⟩ := uniqueOr_eq_ok.1 hg
      have o1 := ho u (by simp)
      have o2 := ho v (by simp)
      have g1 := hg u (by simp)
      have g2 := hg v (by simp)
      injection h with h
      refine ⟨hs, o1.trans o2.symm, g1.trans g2.symm, ?_⟩
      rw [← h, ← o1, ← g1]; rfl
    · rintro ⟨-, ho, hg, rfl⟩
      refine ⟨u.offset, uniqueOr_eq_ok.2 ⟨by simp, by simp [ho]⟩, u.grid,
        uniqueOr_eq_ok.2 ⟨by simp, by simp [hg]⟩, rfl⟩
  · rw [if_pos (by simpa using hs)]
    simp [hs]

theorem gmap2_ok {f : K → K → K} {u v : GridArray d K} (hs : u.shape = v.shape)
    (ho : u.offset = v.offset) (hg : u.grid = v.grid) :
    gmap2 f u v = .ok ⟨⟨u.shape, fun i => f (u.data i) (v.data i)⟩, u.offset, u.grid⟩ :=
  gmap2_eq_ok.2 ⟨hs, ho, hg, rfl⟩

theorem stencilSum_pair {u v : GridArray d K} (hs : u.shape = v.shape) (hg : u.grid = v.grid) :
    stencilSum [u, v] = .ok ⟨⟨u.shape, fun i => u.data i + v.data i⟩,
      fun a => (u.offset a + v.offset a) / 2, u.grid⟩ := by
  have h1 : uniqueOr .type (fun u : GridArray d K => u.shape) [u, v] = .ok u.shape :=
    uniqueOr_eq_ok.2 ⟨by simp, by simp [hs]⟩
  have h2 : consistentGrid [u, v] = .ok u.grid := uniqueOr_eq_ok.2 ⟨by simp, by simp [hg]⟩
  unfold stencilSum
  rw [h1, Except.bind_ok, h2, Except.bind_ok, Except.pure_eq_ok]
  refine congrArg Except.ok (GridArray.ext' rfl ?_ ?_ rfl)
  · funext i; simp
  · funext a; simp [averagedOffset]

theorem sumFold_eq_ok (xs : List (GridArray d K)) (a r : GridArray d K) :
    xs.foldlM (fun acc y => gmap2 (· + ·) acc y) a = .ok r ↔
      (∀ x ∈ xs, x.shape = a.shape ∧ x.offset = a.offset ∧ x.grid = a.grid) ∧
      r = ⟨⟨a.shape, fun i => a.data i + (xs.map fun x => x.data i).sum⟩, a.offset, a.grid⟩ := by
  induction xs generalizing a with
  | nil =>
    simp only [List.foldlM_nil, Except.pure_eq_ok, List.not_mem_nil, false_imp_iff, implies_true,
      true_and, List.map_nil, List.sum_nil, add_zero]
    constructor
    · intro h; injection h with h; exact h.symm
    · rintro rfl; rfl
  | cons x xs ih =>
    rw [List.foldlM_cons]
    simp only [Except.bind_eq_ok, gmap2_eq_ok, ih]
    constructor
    · rintro ⟨b, ⟨h1, h2, h3, rfl⟩, h4, rfl⟩
      refine ⟨?_, ?_⟩
      · intro y hy
        rcases List.mem_cons.1 hy with rfl | hy
        · exact ⟨h1.symm, h2.symm, h3.symm⟩
        · exact h4 y hy
      · refine GridArray.ext' rfl ?_ rfl rfl
        funext i; simp [add_assoc]
    · rintro ⟨h1, rfl⟩
      refine ⟨_, ⟨(h1 x (by simp)).1.symm, (h1 x (by simp)).2.1.symm, (h1 x (by simp)).2.2.symm, rfl⟩,
        fun y hy => h1 y (by simp [hy]), ?_⟩
      refine GridArray.ext' rfl ?_ rfl rfl
      funext i; simp [add_assoc]

theorem sumArrays_eq_ok {xs : List (GridArray d K)} {r : GridArray d K} :
    sumArrays xs = .ok r ↔ xs ≠ [] ∧
      (∀ x ∈ xs, x.shape = r.shape ∧ x.offset = r.offset ∧ x.grid = r.grid) ∧
      r.data = fun i => (xs.map fun x => x.data i).sum := by
  cases xs with
  | nil => simp [sumArrays]
  | cons x xs =>
    unfold sumArrays
    rw [sumFold_eq_ok]
    simp only [ne_eq, reduceCtorEq, not_false_eq_true, true_and, gmap, NArr.map, zero_add]
    constructor
    · rintro ⟨h, rfl⟩
      refine ⟨?_, by simp⟩
      intro y hy
      rcases List.mem_cons.1 hy with rfl | hy
      · exact ⟨rfl, rfl, rfl⟩
      · exact h y hy
    · rintro ⟨h, hd⟩
      obtain ⟨h1, h2, h3⟩ := h x (by simp)
      refine ⟨fun y hy => ?_, GridArray.ext' h1.symm ?_ h2.symm h3.symm⟩
      · rw [h1, h2, h3]; exact h y (by simp [hy])
      · rw [hd]; simp

/-- closed form of `sum` over axes -/
theorem sumArrays_ofFn {f : Fin d → GridArray d K} {r : GridArray d K} :
    sumArrays (List.ofFn f) = .ok r ↔ d ≠ 0 ∧
      (∀ a, (f a).shape = r.shape ∧ (f a).offset = r.offset ∧ (f a).grid = r.grid) ∧
      r.data = fun i => ∑ a, (f a).data i := by
  rw [sumArrays_eq_ok]
  refine and_congr (by simp) (and_congr ?_ ?_)
  · simp [List.mem_ofFn]
  · simp only [List.map_ofFn, List.sum_ofFn, Function.comp_def]

namespace GridVariable
variable {u : GridVariable d K}

omit [DecidableEq K] in
theorem Periodic.shift (h : u.Periodic) (k : ℤ) (ax : Fin d) (mode : Padding := .extend) :
    u.shift k ax mode = .ok ⟨⟨u.array.shape, fun i => u.array.data (rollIdx u.array.shape ax k i)⟩,
      Function.update u.array.offset ax (u.array.offset ax + k), u.array.grid⟩ :=
  BC.shift_periodic _ _ _ _ _ (h.1 ax) (h.2 ax).1 (h.2 ax).2

omit [DecidableEq K] in
theorem Periodic.mk' {w : GridArray d K} {bc : BC d K} (h : u.Periodic) (hb : ∀ a, bc.types a = u.bc.types a)
    (hs : w.shape = u.array.shape) (hg : w.grid = u.array.grid) :
    (⟨w, bc⟩ : GridVariable d K).Periodic :=
  ⟨fun a => (hb a).trans (h.1 a), fun a => by
    show w.shape a = w.grid.shape a ∧ 0 < w.grid.shape a
    rw [hs, hg]; exact h.2 a⟩

end GridVariable

theorem half_offset (o : Fin d → ℚ) (ax : Fin d) (q : ℚ) :
    (fun a => (Function.update o ax (o ax + q) a + o a) / 2) = Function.update o ax (o ax + q / 2) := by
  funext a
  by_cases h : a = ax
  · subst h; simp; ring
  · simp [h]

theorem half_offset' (o : Fin d → ℚ) (ax : Fin d) (q : ℚ) :
    (fun a => (o a + Function.update o ax (o ax + q) a) / 2) = Function.update o ax (o ax + q / 2) := by
  rw [← half_offset]; funext a; rw [add_comm]

/-- `forward_difference` in terms of the shift. -/
theorem forwardDifference_of_shift {u : GridVariable d K} {ax : Fin d} {p : GridArray d K}
    (hp : u.shift 1 ax = .ok p) (hs : p.shape = u.array.shape) (hg : p.grid = u.array.grid)
    (ho : p.offset = Function.update u.array.offset ax (u.array.offset ax + 1)) :
    forwardDifference u ax = .ok ⟨⟨u.array.shape, fun i =>
      (p.data i - u.array.data i) / u.array.grid.step ax⟩,
      Function.update u.array.offset ax (u.array.offset ax + 1 / 2), u.array.grid⟩ := by
  unfold forwardDifference
  rw [hp, Except.bind_ok, stencilSum_pair (by simpa [gmap, NArr.map] using hs) (by simpa [gmap] using hg),
    Except.bind_ok, Except.pure_eq_ok]
  refine congrArg Except.ok (GridArray.ext' hs ?_ ?_ hg)
  · funext i; simp [gmap, NArr.map, sub_eq_add_neg]
  · simp only [gmap, ho]; exact half_offset _ _ _

theorem backwardDifference_of_shift {u : GridVariable d K} {ax : Fin d} {m : GridArray d K}
    (hm : u.shift (-1) ax = .ok m) (hs : m.shape = u.array.shape) (hg : m.grid = u.array.grid)
    (ho : m.offset = Function.update u.array.offset ax (u.array.offset ax - 1)) :
    backwardDifference u ax = .ok ⟨⟨u.array.shape, fun i =>
      (u.array.data i - m.data i) / u.array.grid.step ax⟩,
      Function.update u.array.offset ax (u.array.offset ax - 1 / 2), u.array.grid⟩ := by
  unfold backwardDifference
  rw [hm, Except.bind_ok, stencilSum_pair (by simpa [gmap, NArr.map] using hs.symm) (by simpa [gmap] using hg.symm),
    Except.bind_ok, Except.pure_eq_ok]
  refine congrArg Except.ok (GridArray.ext' rfl ?_ ?_ rfl)
  · funext i; simp [gmap, NArr.map, sub_eq_add_neg]
  · simp only [gmap, ho, sub_eq_add_neg]; rw [half_offset']
    congr 1; ring

theorem centralDifference_of_shift {u : GridVariable d K} {ax : Fin d} {p m : GridArray d K}
    (hp : u.shift 1 ax = .ok p) (hm : u.shift (-1) ax = .ok m)
    (hps : p.shape = u.array.shape) (hpg : p.grid = u.array.grid)
    (hpo : p.offset = Function.update u.array.offset ax (u.array.offset ax + 1))
    (hs : m.shape = u.array.shape) (hg : m.grid = u.array.grid)
    (ho : m.offset = Function.update u.array.offset ax (u.array.offset ax - 1)) :
    centralDifference u ax = .ok ⟨⟨u.array.shape, fun i =>
      (p.data i - m.data i) / (2 * u.array.grid.step ax)⟩, u.array.offset, u.array.grid⟩ := by
  unfold centralDifference
  rw [hp, Except.bind_ok, hm, Except.bind_ok, stencilSum_pair (by simp [gmap, hps, hs, NArr.map]) (by simp [gmap, hpg, hg]),
    Except.bind_ok, Except.pure_eq_ok]
  refine congrArg Except.ok (GridArray.ext' hps ?_ ?_ hpg)
  · funext i; simp [gmap, NArr.map, sub_eq_add_neg]
  · simp only [gmap, ho, hpo]
    funext a
    by_cases h : a = ax
    · subst h; simp
    · simp [h]

theorem laplacian_of_shift {u : GridVariable d K} {p m : Fin d → GridArray d K}
    (hp : ∀ ax, u.shift 1 ax = .ok (p ax)) (hm : ∀ ax, u.shift (-1) ax = .ok (m ax))
    (hps : ∀ ax, (p ax).shape = u.array.shape) (hpg : ∀ ax, (p ax).grid = u.array.grid)
    (hpo : ∀ ax, (p ax).offset = Function.update u.array.offset ax (u.array.offset ax + 1))
    (hs : ∀ ax, (m ax).shape = u.array.shape) (hg : ∀ ax, (m ax).grid = u.array.grid)
    (ho : ∀ ax, (m ax).offset = Function.update u.array.offset ax (u.array.offset ax - 1)) :
    laplacian u = .ok ⟨⟨u.array.shape, fun i =>
      ∑ a, ((p a).data i + (m a).data i - 2 * u.array.data i) / u.array.grid.step a ^ 2⟩,
      u.array.offset, u.array.grid⟩ := by
  have key : ∀ (l : List (Fin d)) (f : Idx d → K),
      l.foldlM (laplacianAxis u) ⟨⟨u.array.shape, f⟩, u.array.offset, u.array.grid⟩ =
      .ok ⟨⟨u.array.shape, fun i => f i +
        (l.map fun a => ((m a).data i + (p a).data i) * (1 / u.array.grid.step a) ^ 2).sum⟩,
      u.array.offset, u.array.grid⟩ := by
    intro l
    induction l with
    | nil => intro f; simp [Except.pure_eq_ok]
    | cons a l ih =>
      intro f
      have : laplacianAxis u ⟨⟨u.array.shape, f⟩, u.array.offset, u.array.grid⟩ a =
          .ok ⟨⟨u.array.shape, fun i => f i + ((m a).data i + (p a).data i) * (1 / u.array.grid.step a) ^ 2⟩,
            u.array.offset, u.array.grid⟩ := by
        unfold laplacianAxis
        rw [hm a, Except.bind_ok, hp a, Except.bind_ok,
          stencilSum_pair ((hs a).trans (hps a).symm) ((hg a).trans (hpg a).symm), Except.bind_ok,
          gmap2_ok]
        · rfl
        · exact (hs a).symm
        · simp only [gmap, ho, hpo]
          funext b
          by_cases h : b = a
          · subst h; simp
          · simp [h]
        · exact (hg a).symm
      rw [List.foldlM_cons, this, Except.bind_ok, ih]
      refine congrArg Except.ok (GridArray.ext' rfl ?_ rfl rfl)
      funext i; simp [add_assoc]
  unfold laplacian
  have h0 : gmap (fun x => -2 * x * ∑ a, (1 / u.array.grid.step a) ^ 2) u.array =
    ⟨⟨u.array.shape, fun i => -2 * u.array.data i * ∑ a, (1 / u.array.grid.step a) ^ 2⟩,
      u.array.offset, u.array.grid⟩ := rfl
  rw [h0, key]
  refine congrArg Except.ok (GridArray.ext' rfl ?_ rfl rfl)
  funext i
  simp only [← List.ofFn_eq_map, List.sum_ofFn]
  rw [Finset.mul_sum, ← Finset.sum_add_distrib]
  refine Finset.sum_congr rfl fun a _ => ?_
  rw [div_pow, one_pow]; ring

/-- Closed form of the forward difference of a periodic variable. -/
abbrev fwdP (u : GridVariable d K) (ax : Fin d) : GridArray d K :=
  ⟨⟨u.array.shape, fun i =>
      (u.array.data (rollIdx u.array.shape ax 1 i) - u.array.data i) / u.array.grid.step ax⟩,
      Function.update u.array.offset ax (u.array.offset ax + 1 / 2), u.array.grid⟩

/-- Closed form of the backward difference of a periodic variable. -/
abbrev bwdP (u : GridVariable d K) (ax : Fin d) : GridArray d K :=
  ⟨⟨u.array.shape, fun i =>
      (u.array.data i - u.array.data (rollIdx u.array.shape ax (-1) i)) / u.array.grid.step ax⟩,
      Function.update u.array.offset ax (u.array.offset ax - 1 / 2), u.array.grid⟩

/-- Closed form of the central difference of a periodic variable. -/
abbrev cenP (u : GridVariable d K) (ax : Fin d) : GridArray d K :=
  ⟨⟨u.array.shape, fun i =>
      (u.array.data (rollIdx u.array.shape ax 1 i) - u.array.data (rollIdx u.array.shape ax (-1) i)) /
        (2 * u.array.grid.step ax)⟩, u.array.offset, u.array.grid⟩

/-- Closed form of the laplacian of a periodic variable. -/
abbrev lapP (u : GridVariable d K) : GridArray d K :=
  ⟨⟨u.array.shape, fun i =>
      ∑ a, (u.array.data (rollIdx u.array.shape a 1 i) + u.array.data (rollIdx u.array.shape a (-1) i) -
        2 * u.array.data i) / u.array.grid.step a ^ 2⟩, u.array.offset, u.array.grid⟩

theorem forwardDifference_periodic {u : GridVariable d K} (h : u.Periodic) (ax : Fin d) :
    forwardDifference u ax = .ok (fwdP u ax) :=
  forwardDifference_of_shift (h.shift 1 ax) rfl rfl (by simp)

theorem backwardDifference_periodic {u : GridVariable d K} (h : u.Periodic) (ax : Fin d) :
    backwardDifference u ax = .ok (bwdP u ax) :=
  backwardDifference_of_shift (h.shift (-1) ax) rfl rfl (by simp [sub_eq_add_neg])

theorem centralDifference_periodic {u : GridVariable d K} (h : u.Periodic) (ax : Fin d) :
    centralDifference u ax = .ok (cenP u ax) :=
  centralDifference_of_shift (h.shift 1 ax) (h.shift (-1) ax) rfl rfl (by simp) rfl rfl
    (by simp [sub_eq_add_neg])

theorem laplacian_periodic {u : GridVariable d K} (h : u.Periodic) :
    laplacian u = .ok (lapP u) :=
  laplacian_of_shift (fun a => h.shift 1 a) (fun a => h.shift (-1) a) (fun _ => rfl) (fun _ => rfl)
    (fun _ => by simp) (fun _ => rfl) (fun _ => rfl) (fun _ => by simp [sub_eq_add_neg])

theorem forwardDifferences_periodic {u : GridVariable d K} (h : u.Periodic) :
    forwardDifferences u = .ok (fwdP u) := seqFin_ok _ _ fun a => forwardDifference_periodic h a

theorem fwdP_periodic {u : GridVariable d K} (h : u.Periodic) (ax : Fin d) :
    (⟨fwdP u ax, u.bc⟩ : GridVariable d K).Periodic := h.mk' (fun _ => rfl) rfl rfl

/-- Re-indexing an inner product with a rolled factor. -/
theorem sum_mul_roll (s : Fin d → ℕ) (ax : Fin d) (k : ℤ) (f g : Idx d → K) :
    ∑ i ∈ box s, f i * g (rollIdx s ax k i) = ∑ i ∈ box s, f (rollIdx s ax (-k) i) * g i := by
  rw [← sum_roll s ax k (fun i => f (rollIdx s ax (-k) i) * g i)]
  refine Finset.sum_congr rfl fun i hi => ?_
  rw [rollIdx_add, add_neg_cancel, rollIdx_zero (mem_box.1 hi)]

/-- What a successful divergence is. -/
theorem divergence_of_backward {v : Fin d → GridVariable d K} {b : Fin d → GridArray d K}
    (hb : ∀ a, backwardDifference (v a) a = .ok (b a)) {r : GridArray d K}
    (h : divergence (List.ofFn v) = .ok r) :
    d ≠ 0 ∧ (∀ a, (b a).shape = r.shape ∧ (b a).offset = r.offset ∧ (b a).grid = r.grid) ∧
      r.data = fun i => ∑ a, (b a).data i := by
  unfold divergence at h
  obtain ⟨g, -, h⟩ := Except.bind_eq_ok.1 h
  rw [dif_pos (by simp), seqFin_ok _ b (fun a => by rw [List.getElem_ofFn]; exact hb a), Except.bind_ok,
    sumArrays_ofFn] at h
  exact h

/-- What a successful divergence of periodic variables is. -/
theorem divergence_periodic {v : Fin d → GridVariable d K} (h : ∀ a, (v a).Periodic) {r : GridArray d K} :
    divergence (List.ofFn v) = .ok r ↔ d ≠ 0 ∧
      (∀ a, (v a).array.shape = r.shape ∧
        Function.update (v a).array.offset a ((v a).array.offset a - 1 / 2) = r.offset ∧
        (v a).array.grid = r.grid) ∧
      r.data = fun i => ∑ a, ((v a).array.data i - (v a).array.data (rollIdx (v a).array.shape a (-1) i)) /
        (v a).array.grid.step a := by
  unfold divergence
  have hseq : seqFin (fun a : Fin d => backwardDifference ((List.ofFn v)[a.1]'(by simp)) a) =
      .ok fun a => bwdP (v a) a := by
    refine seqFin_ok _ _ fun a => ?_
    rw [List.getElem_ofFn]
    exact backwardDifference_periodic (h a) a
  rw [Except.bind_eq_ok]
  constructor
  · rintro ⟨g, -, hr⟩
    rw [dif_pos (by simp), hseq, Except.bind_ok, sumArrays_ofFn] at hr
    exact hr
  · rintro ⟨h0, h1, h2⟩
    refine ⟨r.grid, uniqueOr_eq_ok.2 ⟨by simpa using h0, ?_⟩, ?_⟩
    · intro x hx
      rw [List.mem_map] at hx
      obtain ⟨y, hy, rfl⟩ := hx
      obtain ⟨a, rfl⟩ := (List.mem_ofFn' _ _).1 hy
      exact (h1 a).2.2
    · rw [dif_pos (by simp), hseq, Except.bind_ok, sumArrays_ofFn]
      exact ⟨h0, h1, h2⟩

end JaxCfd
