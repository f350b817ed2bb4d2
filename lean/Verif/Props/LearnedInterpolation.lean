import Verif.Model.LearnedInterpolation
import Verif.Props.FusedDerivative
import Verif.Props.ImplicitNS
import Verif.Props.Advection
import Mathlib.LinearAlgebra.FiniteDimensional.Basic

/-!
# C63: learned interpolation and the modular Navier-Stokes model
-/

namespace JaxCfd.ML
variable {d : ℕ}

/-! ## The layers of an interpolation can always be built -/

/-- `np.linalg.solve` returns a result for every square matrix with trivial kernel. -/
def SolvesRegular (solve : List (List ℝ) → List ℝ → Except Err (List ℝ)) : Prop :=
  ∀ rows : List (List ℝ × ℝ), (∀ q ∈ rows, q.1.length = rows.length) →
    (∀ c : List ℝ, c.length = rows.length → (∀ q ∈ rows, weighted q.1 c = 0) → ∀ x ∈ c, x = 0) →
    ∃ c, solve (rows.map fun q => q.1) (rows.map fun q => q.2) = .ok c

theorem termFn_zero {h : ℝ} (hh : h ≠ 0) (s : ℝ) : termFn .finiteVolume h 0 s = 1 := by
  unfold termFn
  field_simp
  ring

theorem termFn_one {h : ℝ} (hh : h ≠ 0) (s : ℝ) : termFn .finiteVolume h 1 s = s := by
  unfold termFn
  field_simp
  push_cast
  ring

theorem one_point_rows {h : ℝ} (hh : h ≠ 0) (s : ℝ) :
    polynomialAccuracyConstraints [[s]] .finiteVolume [0] 1 (some h) = .ok [([1], 1)] := by
  have he : exponentsUpToDegree (1 + (([0] : List ℕ).sum : ℕ) - 1 : ℤ).toNat ([[s]] : List (List ℝ)).length = [[0]] := by
    simp [exponentsUpToDegree]
  unfold polynomialAccuracyConstraints
  rw [if_neg (by simp), if_neg (by norm_num), he]
  simp [List.foldlM, constraintTerms, lhsTerm_ok, termFn_zero hh, kroneckerProduct, addConstraint, rhsTerm, bind, Except.bind, pure, Except.pure]

theorem two_point_volume_rows {h : ℝ} (hh : h ≠ 0) {s t : ℝ} (hst : s ≠ t) :
    ∃ rows, polynomialAccuracyConstraints [[s, t]] .finiteVolume [0] 2 (some h) = .ok rows ∧ rows.length = 2 ∧ ([1, 1], (1 : ℝ)) ∈ rows ∧
      ([s, t], (0 : ℝ)) ∈ rows ∧ ∀ q ∈ rows, q.1.length = 2 := by
  have he : exponentsUpToDegree (2 + (([0] : List ℕ).sum : ℕ) - 1 : ℤ).toNat ([[s, t]] : List (List ℝ)).length = [[0], [1]] := by
    simp [exponentsUpToDegree, List.range_succ]
  have hne : ¬(([1, 1] : List ℝ) = [s, t]) := fun h => by
    injection h with h1 h2
    injection h2 with h2
    exact hst (h1.symm.trans h2)
  refine ⟨([([1, 1], 1), ([s, t], 0)] : List (List ℝ × ℝ)).mergeSort fun p q => decide (p.1 ≤ q.1), ?_, by rw [List.length_mergeSort]; rfl, ?_, ?_, ?_⟩
  · unfold polynomialAccuracyConstraints
    rw [if_neg (by simp), if_neg (by norm_num), he]
    simp [List.foldlM, constraintTerms, lhsTerm_ok, termFn_zero hh, termFn_one hh, kroneckerProduct, addConstraint, rhsTerm, bind, Except.bind, pure,
      Except.pure, hne]
  · rw [List.mem_mergeSort]; simp
  · rw [List.mem_mergeSort]; simp
  · intro q hq
    rw [List.mem_mergeSort] at hq
    simp only [List.mem_cons, List.not_mem_nil, or_false] at hq
    rcases hq with h | h <;> rw [h] <;> rfl

theorem highOrder_one {solve : List (List ℝ) → List ℝ → Except Err (List ℝ)} (hr : SolvesRegular solve) {h : ℝ} (hh : h ≠ 0) (s : ℝ) :
    ∃ c, highOrderCoefficients solve [s] .finiteVolume 0 (some h) = .ok c := by
  unfold highOrderCoefficients
  have e : (([s] : List ℝ).length : ℤ) - (0 : ℕ) = 1 := by simp
  rw [e, one_point_rows hh]
  obtain ⟨c, hc⟩ := hr [([1], 1)] (by simp) (by
    intro c hl hz
    obtain ⟨x, rfl⟩ := List.length_eq_one_iff.1 hl
    have := hz _ (List.mem_singleton.2 rfl)
    simpa [weighted] using this)
  exact ⟨c, hc⟩

theorem highOrder_two {solve : List (List ℝ) → List ℝ → Except Err (List ℝ)} (hr : SolvesRegular solve) {h : ℝ} (hh : h ≠ 0) {s t : ℝ} (hst : s ≠ t) :
    ∃ c, highOrderCoefficients solve [s, t] .finiteVolume 0 (some h) = .ok c := by
  unfold highOrderCoefficients
  have e : (([s, t] : List ℝ).length : ℤ) - (0 : ℕ) = 2 := by simp
  obtain ⟨rows, h1, h2, h3, h4, h5⟩ := two_point_volume_rows hh hst
  rw [e, h1]
  obtain ⟨c, hc⟩ := hr rows (by rw [h2]; exact h5) (by
    intro c hl hz
    rw [h2] at hl
    obtain ⟨x, y, rfl⟩ := List.length_eq_two.1 hl
    have e1 := hz _ h3
    have e2 := hz _ h4
    simp [weighted] at e1 e2
    have e3 : y = -x := by linarith
    rw [e3] at e2
    have e4 : x = 0 := by
      have : x * (s - t) = 0 := by linarith
      rcases mul_eq_zero.1 this with h | h
      · exact h
      · exact absurd (sub_eq_zero.1 h) hst
    intro z hz
    rw [e3, e4] at hz
    simpa using hz)
  exact ⟨c, hc⟩

/-- A centred part of one or two points of the stencil is used for the bias. -/
theorem highOrder_slice {solve : List (List ℝ) → List ℝ → Except Err (List ℝ)} (hr : SolvesRegular solve) {h : ℝ} (hh : h ≠ 0) (s : List ℝ)
    (h0 : 0 < s.length) (hn : s.Nodup) : ∃ c, highOrderCoefficients solve (pySliceList s (coefficientSlice s.length 0 (some 1)).1
      (coefficientSlice s.length 0 (some 1)).2) .finiteVolume 0 (some h) = .ok c := by
  have hlen : ∃ m, m < s.length ∧ pySliceList s (coefficientSlice s.length 0 (some 1)).1 (coefficientSlice s.length 0 (some 1)).2 =
      (s.take (s.length - m)).drop m ∧ (s.length = 2 * m + 1 ∨ s.length = 2 * m + 2) := by
    refine ⟨(s.length - 1) / 2, by omega, ?_, by omega⟩
    unfold pySliceList coefficientSlice clipBound
    dsimp only
    rw [if_neg (by omega), if_neg (by omega)]
    congr 1
    · omega
    · congr 1
      omega
  obtain ⟨m, hm, e, hcase⟩ := hlen
  rw [e]
  have hl : ((s.take (s.length - m)).drop m).length = s.length - m - m := by simp
  have hnd : ((s.take (s.length - m)).drop m).Nodup := (hn.sublist (List.take_sublist _ _)).sublist (List.drop_sublist _ _)
  rcases hcase with h1 | h1
  · obtain ⟨x, hx⟩ := List.length_eq_one_iff.1 (hl.trans (by omega))
    rw [hx]
    exact highOrder_one hr hh x
  · obtain ⟨x, y, hx⟩ := List.length_eq_two.1 (hl.trans (by omega))
    rw [hx] at hnd ⊢
    exact highOrder_two hr hh (by simpa using hnd)

theorem axisCoefficients_succeed {solve : List (List ℝ) → List ℝ → Except Err (List ℝ)} {method : Method} {acc : Option ℤ} {h : Option ℝ}
    (st : Fin d → List ℝ) (o : Fin d → ℕ) (hc : ∀ a, ∃ c, highOrderCoefficients solve
      (pySliceList (st a) (coefficientSlice (st a).length (o a) acc).1 (coefficientSlice (st a).length (o a) acc).2) method (o a) h = .ok c) :
    ∃ c : Fin d → List ℝ, axisCoefficients solve method acc h (List.ofFn st) (List.ofFn o) = .ok (List.ofFn c) := by
  induction d with
  | zero => exact ⟨fun a => [], by simp [axisCoefficients]⟩
  | succ d ih =>
    obtain ⟨c0, h0⟩ := hc 0
    obtain ⟨c, h1⟩ := ih (fun a => st a.succ) (fun a => o a.succ) fun a => hc a.succ
    refine ⟨Fin.cons c0 c, ?_⟩
    rw [List.ofFn_succ, List.ofFn_succ, List.ofFn_succ]
    unfold axisCoefficients
    dsimp only
    rw [h0, h1]
    simp [bind, Except.bind, pure, Except.pure]

theorem exponents_zero (n : ℕ) : exponentsUpToDegree 0 n = [List.ofFn fun _ : Fin n => 0] := by
  induction n with
  | zero => simp [exponentsUpToDegree]
  | succ n ih =>
    unfold exponentsUpToDegree
    simp [ih]

theorem interpolation_rows (hd : 0 < d) {h : ℝ} (st : Fin d → List ℝ) :
    ∃ q, polynomialAccuracyConstraints (List.ofFn st) .finiteVolume (List.ofFn fun _ : Fin d => 0) 1 (some h) = .ok [q] := by
  have hk : kroneckerProduct (List.ofFn fun a => (st a).map (termFn .finiteVolume h 0)) = .ok (kronR (List.ofFn fun a => (st a).map (termFn .finiteVolume h 0))) :=
    kroneckerProduct_ok _ (by rw [ne_eq, List.ofFn_eq_nil_iff]; omega)
  unfold polynomialAccuracyConstraints
  rw [if_neg (by simp), if_neg (by norm_num)]
  have e : (1 + ((List.ofFn fun _ : Fin d => (0 : ℕ)).sum : ℕ) - 1 : ℤ).toNat = 0 := by simp
  rw [e, List.length_ofFn, exponents_zero, List.foldlM_cons,
    constraintTerms_ok .finiteVolume (some h) (termFn .finiteVolume h) (fun e st => lhsTerm_ok .finiteVolume h e st)]
  simp only [Except.bind_ok, hk]
  simp [addConstraint, pure, Except.pure, bind, Except.bind]

theorem stencil_nodup (k : Fin d → ℕ) (o : Fin d → ℚ) (steps : Fin d → ℝ) (hs : ∀ a, steps a ≠ 0) (a : Fin d) : (getStencils k o steps a).Nodup := by
  unfold getStencils
  refine List.Nodup.map ?_ ?_
  · intro x y hxy
    have h1 := mul_right_cancel₀ (hs a) hxy
    have h2 : (-(o a) + (x : ℚ) : ℚ) = -(o a) + (y : ℚ) := by exact_mod_cast h1
    have h3 : (x : ℚ) = (y : ℚ) := by linarith
    exact_mod_cast h3
  · unfold stencilCells pyRange
    dsimp only
    refine List.Nodup.map ?_ List.nodup_range
    intro x y hxy
    simp only at hxy
    omega

/-- Every interpolation layer of an equidistant grid whose stencil has at least two points can be built. -/
theorem layer_constructs {solve : List (List ℝ) → List ℝ → Except Err (List ℝ)} (hs : SolvesExactly solve) (hr : SolvesRegular solve)
    (svd : List (List ℝ) → List (List ℝ)) (hd : 0 < d) (k : Fin d → ℕ) (hk : ∀ a, 0 < k a) (h2 : 2 ≤ ∏ a, k a)
    (inputOffset targetOffset : Fin d → ℚ) (steps : Fin d → ℝ) (h : ℝ) (hh : 0 < h) (hsteps : ∀ a, steps a = h) (pm : String)
    (layout : Option (Fin d → ℕ)) :
    ∃ s, mkSpatialDeriv solve svd k inputOffset targetOffset (fun _ => 0) steps pm layout .finiteVolume = .ok s ∧
      s.constraint.nullspaceSize = (∏ a, k a : ℕ) - 1 := by
  have hst : ∀ a, (getStencils k (getRollAndShift inputOffset targetOffset).2 steps a).length = k a :=
    fun a => (C51_stencils k _ steps a).1
  obtain ⟨q, hq⟩ := interpolation_rows (h := h) hd (getStencils k (getRollAndShift inputOffset targetOffset).2 steps)
  obtain ⟨cs, hcs⟩ := axisCoefficients_succeed (solve := solve) (method := .finiteVolume) (acc := some 1) (h := some h)
    (getStencils k (getRollAndShift inputOffset targetOffset).2 steps) (fun _ => 0) fun a =>
      highOrder_slice hr hh.ne' _ (by rw [hst]; exact hk a) (stencil_nodup k _ steps (fun a => by rw [hsteps]; exact hh.ne') a)
  obtain ⟨b, hb⟩ : ∃ b, polynomialAccuracyCoefficients solve (List.ofFn (getStencils k (getRollAndShift inputOffset targetOffset).2 steps)) .finiteVolume
      (List.ofFn fun _ : Fin d => 0) (some 1) (some h) = .ok b := by
    unfold polynomialAccuracyCoefficients
    rw [hcs, Except.bind_ok, kroneckerProduct_ok _ (by rw [ne_eq, List.ofFn_eq_nil_iff]; omega), Except.bind_ok]
    exact ⟨_, rfl⟩
  obtain ⟨hb1, hb2⟩ := coefficients_exact hs hd (termFn .finiteVolume h) (fun e st => lhsTerm_ok .finiteVolume h e st) _ _ 1 le_rfl
    (fun a => by rw [hst]; have := hk a; push_cast; omega) hb
  have hcol : q.1.length = ∏ a, k a := by
    have := (rows_length hd hq).1 q (by simp)
    rw [this, stencilPoints_length]
    exact Finset.prod_congr rfl fun a _ => hst a
  have hres : residualNorm [q] b = 0 := by
    refine residualNorm_eq_zero fun q' hq' => ?_
    obtain ⟨e, he, rfl⟩ := (constraints_iff hd _ (fun e st => lhsTerm_ok .finiteVolume h e st) hq q').1 hq'
    exact hb2 e he
  have hdedup : (List.ofFn steps).dedup = [h] := by
    have : List.ofFn steps = List.replicate d h := by
      rw [List.eq_replicate_iff]
      refine ⟨by simp, fun x hx => ?_⟩
      obtain ⟨a, rfl⟩ := List.mem_ofFn.1 hx
      exact hsteps a
    rw [this]
    exact List.replicate_dedup (by omega)
  unfold mkSpatialDeriv
  dsimp only
  unfold mkPolyConstraint
  rw [if_neg (by rw [hdedup]; simp)]
  have e0 : (List.ofFn steps).dedup.getD 0 0 = h := by rw [hdedup]; rfl
  rw [e0]
  simp only [hq, hb, Except.bind_ok]
  unfold finishPolyConstraint
  dsimp only
  have e1 : ((([q] : List (List ℝ × ℝ)).map fun q => q.1.length).head?).getD 0 = ∏ a, k a := by simp [hcol]
  rw [if_neg (by
    rw [e1, hb1, stencilPoints_length, not_not]
    exact Finset.prod_congr rfl fun a _ => hst a), hres, if_neg (by norm_num), if_neg (by
    have := e1
    simp only [List.length_singleton]
    omega)]
  exact ⟨_, rfl, by
    have := e1
    simp only [List.length_singleton]
    omega⟩

/-! ## Keys -/

theorem mem_foldl_insertKey (l : List (InterpKey d)) (acc : List (InterpKey d)) (k : InterpKey d) :
    k ∈ l.foldl insertKey acc ↔ k ∈ acc ∨ k ∈ l := by
  induction l generalizing acc with
  | nil => simp
  | cons x l ih =>
    rw [List.foldl_cons, ih, List.mem_cons]
    have : k ∈ insertKey acc x ↔ k ∈ acc ∨ k = x := by
      unfold insertKey
      split_ifs with h
      · constructor
        · exact Or.inl
        · rintro (h' | rfl)
          · exact h'
          · exact h
      · simp
    rw [this]
    tauto

/-- The keys of a learned interpolation: every component, every face of its control volume, every tag. -/
theorem mem_learnedKeys {v : List (GridVariable d ℝ)} {tags : List (Option String)} {k : InterpKey d} :
    k ∈ learnedKeys v tags ↔ ∃ u ∈ v, ∃ j : Fin d, ∃ t ∈ tags, k = (u.array.offset, controlVolumeOffsets u.array j, t) := by
  unfold learnedKeys
  rw [mem_foldl_insertKey]
  simp only [List.not_mem_nil, false_or, List.mem_flatMap, List.mem_map, List.mem_finRange, true_and]
  constructor
  · rintro ⟨u, hu, j, t, ht, rfl⟩
    exact ⟨u, hu, j, t, ht, rfl⟩
  · rintro ⟨u, hu, j, t, ht, rfl⟩
    exact ⟨u, hu, j, t, ht, rfl⟩

theorem foldl_insertKey_nodup (l : List (InterpKey d)) (acc : List (InterpKey d)) (h : acc.Nodup) : (l.foldl insertKey acc).Nodup := by
  induction l generalizing acc with
  | nil => exact h
  | cons x l ih =>
    refine ih _ ?_
    unfold insertKey
    split_ifs with hx
    · exact h
    · rw [List.nodup_append]
      refine ⟨h, by simp, ?_⟩
      intro a ha b hb
      rw [List.mem_singleton] at hb
      rw [hb]
      rintro rfl
      exact hx ha

theorem learnedKeys_nodup (v : List (GridVariable d ℝ)) (tags : List (Option String)) : (learnedKeys v tags).Nodup :=
  foldl_insertKey_nodup _ _ List.nodup_nil

section
variable {solve : List (List ℝ) → List ℝ → Except Err (List ℝ)} {svd : List (List ℝ) → List (List ℝ)}

theorem mkFused_ok {g : Grid d ℝ} {cfg : FusedConfig d} {v : List (GridVariable d ℝ)} {s : FusedInterp d} (h : mkFused solve svd g cfg v = .ok s) :
    s.keys = learnedKeys v cfg.tags ∧ List.Forall₂ (fun k l => interpLayer solve svd g cfg k = .ok l) s.keys s.derivs ∧
    s.fuseConstraints = cfg.fuseConstraints ∧ s.fusePatches = cfg.fusePatches ∧
    ∃ inputs, stackChan v = .ok inputs ∧ cfg.tower ((s.derivs.map fun l => l.constraint.nullspaceSize).sum) inputs = .ok s.logits := by
  unfold mkFused at h
  obtain ⟨ds, h1, h⟩ := Except.bind_eq_ok.1 h
  obtain ⟨x, h2, h⟩ := Except.bind_eq_ok.1 h
  obtain ⟨l, h3, h⟩ := Except.bind_eq_ok.1 h
  injection h with h
  subst h
  exact ⟨rfl, (mapM_eq_ok _ _ _).1 h1, rfl, rfl, x, h2, h3⟩

/-- **C63.** Which interpolations a learned interpolation can do: a pair of offsets and a tag that the constructor did not prepare is a `KeyError`, and for
a prepared one the layer of exactly that pair is used, on its own part of the output of the network. -/
theorem C63_lookup (g : Grid d ℝ) (cfg : FusedConfig d) (v : List (GridVariable d ℝ)) (s : FusedInterp d) (h : mkFused solve svd g cfg v = .ok s)
    (c : GridVariable d ℝ) (offset : Fin d → ℚ) (tag : Option String) (hne : c.array.offset ≠ offset) :
    ((∀ u ∈ v, ∀ j : Fin d, ∀ t ∈ cfg.tags, (c.array.offset, offset, tag) ≠ (u.array.offset, controlVolumeOffsets u.array j, t)) →
      s.call c offset tag = .error .key) ∧
    ((∃ u ∈ v, ∃ j : Fin d, tag ∈ cfg.tags ∧ c.array.offset = u.array.offset ∧ offset = controlVolumeOffsets u.array j) →
      ∃ k : Fin s.derivs.length, interpLayer solve svd g cfg (c.array.offset, offset, tag) = .ok (s.derivs.get k) ∧
        s.call c offset tag = (do
          let r ← s.apply k (expandLast c.array.toNArr)
          let x ← squeezeLast r
          return .variable ⟨⟨x, offset, c.array.grid⟩, c.bc⟩)) := by
  obtain ⟨hk, hd, -, -, -⟩ := mkFused_ok h
  obtain ⟨hlen, hget⟩ := forall2_getElem hd
  unfold FusedInterp.call
  rw [if_neg hne]
  constructor
  · intro hm
    rw [dif_neg]
    rw [← hlen, List.idxOf_lt_length_iff, hk, mem_learnedKeys]
    rintro ⟨u, hu, j, t, ht, e⟩
    exact hm u hu j t ht e
  · rintro ⟨u, hu, j, ht, e1, e2⟩
    have hmem : (c.array.offset, offset, tag) ∈ s.keys := by
      rw [hk, mem_learnedKeys]
      exact ⟨u, hu, j, tag, ht, by rw [e1, e2]⟩
    have hlt := List.idxOf_lt_length_iff.2 hmem
    rw [dif_pos (by rw [← hlen]; exact hlt)]
    refine ⟨⟨_, by rw [← hlen]; exact hlt⟩, ?_, rfl⟩
    have := hget _ hlt (by rw [← hlen]; exact hlt)
    rw [List.getElem_idxOf] at this
    exact this

/-- **C63.** If the offset does not change, the fused interpolation does not return the variable itself (as every other interpolation function does): its
data get one axis of length 1 more. -/
theorem C63_same_offset_defect (s : FusedInterp d) (c : GridVariable d ℝ) (tag : Option String) :
    ∃ x : Chan d ℝ, s.call c c.array.offset tag = .ok (.expanded x c.array.offset c.array.grid c.bc) ∧ x.shape = c.array.shape ∧ x.chan = 1 ∧
      ∀ i : Idx d, x.data i 0 = c.array.data i := by
  unfold FusedInterp.call
  rw [if_pos rfl]
  exact ⟨_, rfl, rfl, rfl, fun i => rfl⟩

/-! ## The value of an interpolation -/

theorem pySliceList_subset {α : Type} (l : List α) (a b : ℤ) : ∀ x ∈ pySliceList l a b, x ∈ l := by
  intro x hx
  unfold pySliceList at hx
  exact List.mem_of_mem_take (List.mem_of_mem_drop hx)

theorem nullspace_rows (hsvd : SvdNullRows svd) {rows : List (List ℝ × ℝ)} {orders : List ℕ} {h : ℝ} {bias : List ℝ}
    {pc : PolyConstraint} {n : ℕ} (hn : ∀ q ∈ rows, q.1.length = n) (hne : rows ≠ []) (hpc : finishPolyConstraint svd rows orders h bias = .ok pc)
    (hsize : 0 < pc.nullspaceSize) : ∀ r ∈ pc.nullspace, r.length = n := by
  have hle : rows.length ≤ n := by
    have hs := (apply_dotL hsvd hn hne hpc hsize).2.2.2.1
    omega
  have hv := (hsvd (rows.map fun q => q.1) n (by simpa using hne) (by
    intro r hr
    obtain ⟨q, hq, rfl⟩ := List.mem_map.1 hr
    exact hn q hq) (by rw [List.length_map]; exact hle)).2.1
  unfold finishPolyConstraint at hpc
  dsimp only at hpc
  split_ifs at hpc with h1 h2 h3
  injection hpc with hpc
  subst hpc
  dsimp only
  generalize svd (rows.map fun q => q.1) = v at hv ⊢
  intro r hr
  obtain ⟨r', hr', rfl⟩ := List.mem_map.1 hr
  rw [List.length_map]
  exact hv r' (pySliceList_subset _ _ _ r' hr')

/-- What is known about the layer of a pair of offsets. -/
theorem layer_facts (hs : SolvesExactly solve) (hr : SolvesRegular solve) (hsvd : SvdNullRows svd) (hd : 0 < d) {g : Grid d ℝ} {h : ℝ} (hh : 0 < h)
    (hsteps : ∀ a, g.step a = h) {cfg : FusedConfig d} {key : InterpKey d} (hk : ∀ a, 0 < cfg.stencil key a) (h2 : 2 ≤ ∏ a, cfg.stencil key a)
    {l : SpatialDeriv d} (hl : interpLayer solve svd g cfg key = .ok l) :
    l.stencilShape = cfg.stencil key ∧ l.roll = (getRollAndShift key.1 key.2.1).1 ∧ l.patchMethod = cfg.patchMethod ∧ l.tileLayout = cfg.tileLayout ∧
    l.constraint.nullspaceSize = (∏ a, cfg.stencil key a : ℕ) - 1 ∧ (l.constraint.nullspace.length : ℤ) = l.constraint.nullspaceSize ∧
    l.constraint.bias.length = ∏ a, cfg.stencil key a ∧ ∀ r ∈ l.constraint.nullspace, r.length = l.constraint.bias.length := by
  obtain ⟨l', hl', hsz⟩ := layer_constructs hs hr svd hd (cfg.stencil key) hk h2 key.1 key.2.1 g.step h hh hsteps cfg.patchMethod cfg.tileLayout
  unfold interpLayer at hl
  rw [hl'] at hl
  injection hl with hl
  subst hl
  obtain ⟨f1, f2, f3, f4, f5⟩ := mkSpatialDeriv_ok hl'
  have hst : ∀ a, (getStencils (cfg.stencil key) (getRollAndShift key.1 key.2.1).2 g.step a).length = cfg.stencil key a :=
    fun a => (C51_stencils (cfg.stencil key) _ g.step a).1
  obtain ⟨h', rows, b, -, -, hrw, hb, hf⟩ := mkPolyConstraint_ok f5
  obtain ⟨hn, hne⟩ := rows_length hd hrw
  have hpos : 0 < l'.constraint.nullspaceSize := by rw [hsz]; omega
  obtain ⟨hbias, hbl, -, -, hnl, -⟩ := apply_dotL hsvd hn hne hf hpos
  have hbl' : l'.constraint.bias.length = ∏ a, cfg.stencil key a := by
    rw [hbias, hbl, stencilPoints_length]
    simp only [hst]
  refine ⟨f1, f2, f3, f4, hsz, hnl, hbl', ?_⟩
  rw [hbias, hbl]
  exact nullspace_rows hsvd hn hne hf hpos

theorem cellAverage_const {h : ℝ} (hh : 0 < h) (k : ℝ) (x : Fin d → ℝ) : cellAverage h (MvPolynomial.C k) x = k := by
  rw [cellAverage_form h hh]
  by_cases hk : k = 0
  · simp [hk]
  · rw [MvPolynomial.C_apply, MvPolynomial.support_monomial, if_neg hk, Finset.sum_singleton]
    simp [termFn_zero hh.ne']

theorem derivAtZero_const (k : ℝ) : derivAtZero (fun _ : Fin d => 0) (MvPolynomial.C k) = k := by
  unfold derivAtZero
  have : ∀ l : List (Fin d), l.foldr (fun a q => (MvPolynomial.pderiv a)^[(fun _ : Fin d => 0) a] q) (MvPolynomial.C k) = MvPolynomial.C k := by
    intro l
    induction l with
    | nil => rfl
    | cons a l ih => rw [List.foldr_cons, ih]; rfl
  rw [this, MvPolynomial.eval_C]

/-- One layer: it returns an array of the shape of its input, and a constant wherever its stencil sees that constant. -/
theorem layer_call (hs : SolvesExactly solve) (hr : SolvesRegular solve) (hsvd : SvdNullRows svd) (hd : 0 < d) {g : Grid d ℝ} {h : ℝ} (hh : 0 < h)
    (hsteps : ∀ a, g.step a = h) {cfg : FusedConfig d} {key : InterpKey d} (hk : ∀ a, 0 < cfg.stencil key a) (h2 : 2 ≤ ∏ a, cfg.stencil key a)
    (hroll : ∀ a, key.1 a ≤ key.2.1 a ∧ key.2.1 a < key.1 a + 1)
    {l : SpatialDeriv d} (hl : interpLayer solve svd g cfg key = .ok l) (x : NArr d ℝ) (hx : ∀ a, 0 < x.shape a)
    (hp : PatchesAvailable (cfg.stencil key) x.shape cfg.patchMethod cfg.tileLayout) (logits : Chan d ℝ)
    (hls : logits.shape = x.shape) (hlc : (logits.chan : ℤ) = l.constraint.nullspaceSize) :
    ∃ out : Chan d ℝ, l.call (expandLast x) logits = .ok out ∧ out.shape = x.shape ∧ out.chan = 1 ∧
      ∀ (i : Idx d) (k : ℝ), InR x.shape i →
        (∀ o : Idx d, InR (cfg.stencil key) o → x.data (fun a => stencilCell (cfg.stencil key) key.1 key.2.1 i o a % (x.shape a : ℤ)) = k) →
        out.data i 0 = k := by
  obtain ⟨f1, f2, f3, f4, f5, f6, f7, f8⟩ := layer_facts hs hr hsvd hd hh hsteps hk h2 hl
  obtain ⟨z, hz, zs, zc, -⟩ := patches_available l (expandLast x) hx rfl (by rw [f1]; exact hk) (by rw [f1, f3, f4]; exact hp)
  obtain ⟨out, ho⟩ : ∃ out, l.call (expandLast x) logits = .ok out := by
    unfold SpatialDeriv.call PolyConstraint.applyChan
    rw [if_neg (by push Not; exact hlc), if_neg (by push Not; omega), hz, Except.bind_ok, Except.bind_ok]
    unfold applyCoefficients
    rw [if_neg]
    · exact ⟨_, rfl⟩
    · push Not
      refine ⟨hls.trans zs.symm, ?_⟩
      rw [zc, f1]
      exact f7
  have hshape : out.shape = x.shape ∧ out.chan = 1 := by
    unfold SpatialDeriv.call at ho
    rw [if_neg (by push Not; exact hlc)] at ho
    obtain ⟨co, -, ho⟩ := Except.bind_eq_ok.1 ho
    rw [hz, Except.bind_ok] at ho
    unfold applyCoefficients at ho
    split_ifs at ho
    injection ho with ho
    subst ho
    exact ⟨zs, rfl⟩
  refine ⟨out, ho, hshape.1, hshape.2, fun i k hi hloc => ?_⟩
  obtain ⟨out', ho', -, -, hv⟩ := C52_spatial_derivative_finite_volume solve hs svd hsvd hd (cfg.stencil key) key.1 key.2.1 (fun _ => 0) g.step h hh hsteps
    cfg.patchMethod cfg.tileLayout (fun a => by have := hk a; omega) (Or.inl hroll) l hl (by rw [f5]; omega) (expandLast x) logits hx rfl hp hls hlc
    (MvPolynomial.C k) (by simp) i hi (fun o ho => by
      rw [cellAverage_const hh]
      exact hloc o ho)
  rw [ho] at ho'
  injection ho' with ho'
  rw [ho', hv, derivAtZero_const]

end

end JaxCfd.ML
