import Verif.Lemmas.SpatialDerivative
import Verif.Props.Polynomial

/-!
# C52: the spatial derivative layers differentiate polynomials exactly (`ml/layers.py`)
-/

namespace JaxCfd
variable {d : ℕ}

/-- The cell of the input that the stencil entry `o` looks at from the output point `i`. -/
def stencilCell (k : Fin d → ℕ) (inputOffset targetOffset : Fin d → ℚ) (i o : Idx d) : Idx d :=
  fun a => i a + ⌊targetOffset a - inputOffset a⌋ + o a - ((k a - 1) / 2 : ℕ)

/-- Where input cell `j` lies relative to the target of output point `i`, on a grid with step `h`. -/
noncomputable def relativePosition (h : ℝ) (inputOffset targetOffset : Fin d → ℚ) (i j : Idx d) : Fin d → ℝ :=
  fun a => (((j a : ℝ) + (inputOffset a : ℝ)) - ((i a : ℝ) + (targetOffset a : ℝ))) * h

theorem mkSpatialDeriv_ok {solve : List (List ℝ) → List ℝ → Except Err (List ℝ)} {svd : List (List ℝ) → List (List ℝ)}
    {k : Fin d → ℕ} {inputOffset targetOffset : Fin d → ℚ} {orders : Fin d → ℕ} {steps : Fin d → ℝ} {pm : String}
    {layout : Option (Fin d → ℕ)} {method : Method} {s : SpatialDeriv d}
    (h : mkSpatialDeriv solve svd k inputOffset targetOffset orders steps pm layout method = .ok s) :
    s.stencilShape = k ∧ s.roll = (getRollAndShift inputOffset targetOffset).1 ∧ s.patchMethod = pm ∧ s.tileLayout = layout ∧
    mkPolyConstraint solve svd (List.ofFn (getStencils k (getRollAndShift inputOffset targetOffset).2 steps)) (List.ofFn orders) method
      (List.ofFn steps) 1 1 none = .ok s.constraint := by
  unfold mkSpatialDeriv at h
  obtain ⟨c, hc, h⟩ := Except.bind_eq_ok.1 h
  injection h with h
  subst h
  exact ⟨rfl, rfl, rfl, rfl, hc⟩

/-- The layer evaluated at one point, for any notion `Λ` of sampling a polynomial for which the constraint
layer is exact. -/
theorem call_exact (k : Fin d → ℕ) (inputOffset targetOffset : Fin d → ℚ) (h : ℝ) (steps : Fin d → ℝ) (hsteps : ∀ a, steps a = h)
    (s : SpatialDeriv d) (hshape : s.stencilShape = k) (hroll : s.roll = (getRollAndShift inputOffset targetOffset).1)
    (hk : ∀ a, 0 < k a)
    (roll0 : (∀ a, inputOffset a ≤ targetOffset a ∧ targetOffset a < inputOffset a + 1) ∨ d = 1)
    (inputs logits : Chan d ℝ) (hx : ∀ a, 0 < inputs.shape a) (hc : inputs.chan = 1) (hls : logits.shape = inputs.shape)
    (hlc : (logits.chan : ℤ) = s.constraint.nullspaceSize) (hnl : (s.constraint.nullspace.length : ℤ) = s.constraint.nullspaceSize)
    (hbl : s.constraint.bias.length = ∏ a, k a)
    (hpatch : ∃ z : Chan d ℝ, s.extractPatches inputs = .ok z ∧ z.shape = inputs.shape ∧ z.chan = ∏ a, k a ∧
      ∀ i o : Idx d, InR inputs.shape i → InR k o →
        z.data i (ravelIdx (List.ofFn k) (List.ofFn o)) = (jnpRollFlat inputs s.roll).per (fun a => i a + o a - ((k a - 1) / 2 : ℕ)) 0)
    (sample : (Fin d → ℝ) → ℝ) (D : ℝ) (i : Idx d) (hi : InR inputs.shape i)
    (hlocal : ∀ o : Idx d, InR k o → inputs.per (stencilCell k inputOffset targetOffset i o) 0 =
      sample (relativePosition h inputOffset targetOffset i (stencilCell k inputOffset targetOffset i o)))
    (hexact : ∀ c, s.constraint.apply ((List.range logits.chan).map fun m : ℕ => logits.data i m) = .ok c →
      weighted ((stencilPoints (getStencils k (getRollAndShift inputOffset targetOffset).2 steps)).map sample) c = D) :
    ∃ out : Chan d ℝ, s.call inputs logits = .ok out ∧ out.shape = inputs.shape ∧ out.chan = 1 ∧ out.data i 0 = D := by
  obtain ⟨z, hz, zs, zc, zd⟩ := hpatch
  obtain ⟨co, hco⟩ : ∃ co, s.constraint.applyChan logits = .ok co := by
    unfold PolyConstraint.applyChan
    rw [if_neg (by omega)]
    exact ⟨_, rfl⟩
  obtain ⟨cs, cc, cd⟩ := applyChan_apply hco
  obtain ⟨out, hout⟩ : ∃ out, applyCoefficients co z = .ok out := by
    unfold applyCoefficients
    rw [if_neg (by
      push Not
      exact ⟨by rw [cs, zs, hls], by rw [cc, zc, hbl]⟩)]
    exact ⟨_, rfl⟩
  have hos : out.shape = inputs.shape ∧ out.chan = 1 := by
    unfold applyCoefficients at hout
    split_ifs at hout
    injection hout with hout
    subst hout
    exact ⟨zs, rfl⟩
  refine ⟨out, ?_, hos.1, hos.2, ?_⟩
  · unfold SpatialDeriv.call
    rw [if_neg (by omega), hco, hz]
    exact hout
  · obtain ⟨cl, h1, h2, h3⟩ := cd i
    rw [applyCoefficients_weighted hout i cl (by rw [h2, zc, hbl]) (by
      intro m hm
      exact h3 m (by rw [hbl, ← zc]; exact hm)), ← hexact cl h1]
    congr 1
    have hst : ∀ a, (getStencils k (getRollAndShift inputOffset targetOffset).2 steps a).length = k a :=
      fun a => (C51_stencils k _ steps a).1
    apply List.ext_getElem
    · rw [List.length_map, List.length_range, List.length_map, stencilPoints_length, zc]
      exact Finset.prod_congr rfl fun a _ => (hst a).symm
    · intro m hm1 hm2
      have hm : m < ∏ a, k a := by rw [List.length_map, List.length_range, zc] at hm1; exact hm1
      rw [List.getElem_map, List.getElem_range, List.getElem_map, stencilPoints_getElem _ k hst m (by rw [List.length_map] at hm2; exact hm2)]
      have ho := tileIdx_inR hk (m : ℤ)
      have e := tileNum_tileIdx (L := k) (b := (m : ℤ)) (by omega) (by
        unfold layoutSize; rw [List.prod_ofFn]; exact_mod_cast hm)
      unfold tileNum at e
      rw [← e, zd i _ hi ho, e, jnpRollFlat_per inputs hx hc s.roll (by
        rcases roll0 with h0 | h0
        · left
          intro a
          rw [hroll, C51_roll_zero_iff]
          exact h0 a
        · exact Or.inr h0)]
      have hcell : (fun a => i a + tileIdx k (m : ℤ) a - ((k a - 1) / 2 : ℕ) - s.roll a) = stencilCell k inputOffset targetOffset i (tileIdx k (m : ℤ)) := by
        funext a
        rw [hroll]
        unfold stencilCell getRollAndShift
        dsimp only
        ring
      rw [hcell, hlocal _ ho]
      congr 1
      funext a
      rw [(C51_stencils k _ steps a).2 _ (by have := ho a; omega), hsteps a]
      unfold relativePosition stencilCell getRollAndShift
      dsimp only
      have hn : ((tileIdx k (m : ℤ) a).toNat : ℝ) = ((tileIdx k (m : ℤ) a : ℤ) : ℝ) := by
        have : (((tileIdx k (m : ℤ) a).toNat : ℤ) : ℝ) = ((tileIdx k (m : ℤ) a : ℤ) : ℝ) := by rw [Int.toNat_of_nonneg (ho a).1]
        exact_mod_cast this
      rw [hn]
      generalize (k a - 1) / 2 = q
      push_cast
      ring

/-- The conditions under which the layer can extract its patches: by rolling always, by convolution if the
tiles of the layout are at least half a stencil wide. -/
def PatchesAvailable (k shape : Fin d → ℕ) (pm : String) (layout : Option (Fin d → ℕ)) : Prop :=
  pm = "roll" ∨ (pm = "conv" ∧ (d = 1 ∨ d = 2 ∨ d = 3) ∧ ∃ L : Fin d → ℕ, layout = some L ∧ (∀ a, 0 < L a) ∧ (∀ a, L a ∣ shape a) ∧
    ∀ a, k a / 2 ≤ shape a / L a)

theorem patches_available (s : SpatialDeriv d) (inputs : Chan d ℝ) (hx : ∀ a, 0 < inputs.shape a) (hc : inputs.chan = 1)
    (hk : ∀ a, 0 < s.stencilShape a) (hp : PatchesAvailable s.stencilShape inputs.shape s.patchMethod s.tileLayout) :
    ∃ z : Chan d ℝ, s.extractPatches inputs = .ok z ∧ z.shape = inputs.shape ∧ z.chan = ∏ a, s.stencilShape a ∧
      ∀ i o : Idx d, InR inputs.shape i → InR s.stencilShape o →
        z.data i (ravelIdx (List.ofFn s.stencilShape) (List.ofFn o)) =
          (jnpRollFlat inputs s.roll).per (fun a => i a + o a - ((s.stencilShape a - 1) / 2 : ℕ)) 0 := by
  unfold SpatialDeriv.extractPatches
  rcases hp with hp | ⟨hp, hd, L, hL, h1, h2, h3⟩
  · rw [hp]
    exact C51_extract_patches_roll (jnpRollFlat inputs s.roll) s.stencilShape hk hc s.tileLayout
  · rw [hp, hL]
    exact C51_extract_patches_conv hd (jnpRollFlat inputs s.roll) hx s.stencilShape hk hc L h1 h2 h3

/-- `SpatialDerivativeFromLogits` (finite volumes, the default): at every output point around which the input
holds the cell averages of a polynomial of total degree at most `Σ orders`, the result is the requested
derivative of that polynomial at the target point — whatever the logits.  The target must lie less than one
cell after the input (no roll), or the domain be one-dimensional. -/
theorem C52_spatial_derivative_finite_volume (solve : List (List ℝ) → List ℝ → Except Err (List ℝ)) (hs : SolvesExactly solve)
    (svd : List (List ℝ) → List (List ℝ)) (hsvd : SvdNullRows svd) (hd : 0 < d)
    (k : Fin d → ℕ) (inputOffset targetOffset : Fin d → ℚ) (orders : Fin d → ℕ) (steps : Fin d → ℝ) (h : ℝ) (hh : 0 < h) (hsteps : ∀ a, steps a = h)
    (pm : String) (layout : Option (Fin d → ℕ)) (hk : ∀ a, orders a + 1 ≤ k a)
    (roll0 : (∀ a, inputOffset a ≤ targetOffset a ∧ targetOffset a < inputOffset a + 1) ∨ d = 1)
    (s : SpatialDeriv d) (hmk : mkSpatialDeriv solve svd k inputOffset targetOffset orders steps pm layout .finiteVolume = .ok s)
    (hsize : 0 < s.constraint.nullspaceSize)
    (inputs logits : Chan d ℝ) (hx : ∀ a, 0 < inputs.shape a) (hc : inputs.chan = 1) (hp : PatchesAvailable k inputs.shape pm layout)
    (hls : logits.shape = inputs.shape) (hlc : (logits.chan : ℤ) = s.constraint.nullspaceSize)
    (p : MvPolynomial (Fin d) ℝ) (hdeg : p.totalDegree ≤ ∑ a, orders a) (i : Idx d) (hi : InR inputs.shape i)
    (hlocal : ∀ o : Idx d, InR k o → inputs.per (stencilCell k inputOffset targetOffset i o) 0 =
      cellAverage h p (relativePosition h inputOffset targetOffset i (stencilCell k inputOffset targetOffset i o))) :
    ∃ out : Chan d ℝ, s.call inputs logits = .ok out ∧ out.shape = inputs.shape ∧ out.chan = 1 ∧ out.data i 0 = derivAtZero orders p := by
  obtain ⟨h1, h2, h3, h4, h5⟩ := mkSpatialDeriv_ok hmk
  have hst : ∀ a, (getStencils k (getRollAndShift inputOffset targetOffset).2 steps a).length = k a :=
    fun a => (C51_stencils k _ steps a).1
  obtain ⟨h', rows, b, -, -, hr, hb, hf⟩ := mkPolyConstraint_ok h5
  obtain ⟨hn, hne⟩ := rows_length hd hr
  obtain ⟨hbias, hbl, -, -, hnl, -⟩ := apply_dotL hsvd hn hne hf hsize
  refine call_exact k inputOffset targetOffset h steps hsteps s h1 h2 (fun a => by have := hk a; omega) roll0 inputs logits hx hc hls hlc hnl
    (by rw [hbias, hbl, stencilPoints_length]; simp only [hst]) ?_ (fun x => cellAverage h p x) _ i hi hlocal ?_
  · have := patches_available s inputs hx hc (by intro a; rw [h1]; have := hk a; omega) (by rw [h1, h3, h4]; exact hp)
    rw [h1] at this
    exact this
  · intro c hcc
    obtain ⟨c', hc', -, hexact⟩ := C52_constraint_layer_finite_volume solve hs svd hsvd hd _ orders (List.ofFn steps) h hh
      (by intro t ht; obtain ⟨a, rfl⟩ := List.mem_ofFn.1 ht; exact hsteps a) 1 1 le_rfl (by intro a; rw [hst a]; have := hk a; omega)
      s.constraint h5 hsize ((List.range logits.chan).map fun m : ℕ => logits.data i m) (by simpa using hlc)
    rw [hc'] at hcc
    injection hcc with hcc
    rw [← hcc]
    exact hexact p (by omega)

/-- The same with point values instead of cell averages (`method=FINITE_DIFFERENCE`). -/
theorem C52_spatial_derivative_finite_difference (solve : List (List ℝ) → List ℝ → Except Err (List ℝ)) (hs : SolvesExactly solve)
    (svd : List (List ℝ) → List (List ℝ)) (hsvd : SvdNullRows svd) (hd : 0 < d)
    (k : Fin d → ℕ) (inputOffset targetOffset : Fin d → ℚ) (orders : Fin d → ℕ) (steps : Fin d → ℝ) (h : ℝ) (hsteps : ∀ a, steps a = h)
    (pm : String) (layout : Option (Fin d → ℕ)) (hk : ∀ a, orders a + 1 ≤ k a)
    (roll0 : (∀ a, inputOffset a ≤ targetOffset a ∧ targetOffset a < inputOffset a + 1) ∨ d = 1)
    (s : SpatialDeriv d) (hmk : mkSpatialDeriv solve svd k inputOffset targetOffset orders steps pm layout .finiteDifference = .ok s)
    (hsize : 0 < s.constraint.nullspaceSize)
    (inputs logits : Chan d ℝ) (hx : ∀ a, 0 < inputs.shape a) (hc : inputs.chan = 1) (hp : PatchesAvailable k inputs.shape pm layout)
    (hls : logits.shape = inputs.shape) (hlc : (logits.chan : ℤ) = s.constraint.nullspaceSize)
    (p : MvPolynomial (Fin d) ℝ) (hdeg : p.totalDegree ≤ ∑ a, orders a) (i : Idx d) (hi : InR inputs.shape i)
    (hlocal : ∀ o : Idx d, InR k o → inputs.per (stencilCell k inputOffset targetOffset i o) 0 =
      MvPolynomial.eval (relativePosition h inputOffset targetOffset i (stencilCell k inputOffset targetOffset i o)) p) :
    ∃ out : Chan d ℝ, s.call inputs logits = .ok out ∧ out.shape = inputs.shape ∧ out.chan = 1 ∧ out.data i 0 = derivAtZero orders p := by
  obtain ⟨h1, h2, h3, h4, h5⟩ := mkSpatialDeriv_ok hmk
  have hst : ∀ a, (getStencils k (getRollAndShift inputOffset targetOffset).2 steps a).length = k a :=
    fun a => (C51_stencils k _ steps a).1
  obtain ⟨h', rows, b, -, -, hr, hb, hf⟩ := mkPolyConstraint_ok h5
  obtain ⟨hn, hne⟩ := rows_length hd hr
  obtain ⟨hbias, hbl, -, -, hnl, -⟩ := apply_dotL hsvd hn hne hf hsize
  refine call_exact k inputOffset targetOffset h steps hsteps s h1 h2 (fun a => by have := hk a; omega) roll0 inputs logits hx hc hls hlc hnl
    (by rw [hbias, hbl, stencilPoints_length]; simp only [hst]) ?_ (fun x => MvPolynomial.eval x p) _ i hi hlocal ?_
  · have := patches_available s inputs hx hc (by intro a; rw [h1]; have := hk a; omega) (by rw [h1, h3, h4]; exact hp)
    rw [h1] at this
    exact this
  · intro c hcc
    obtain ⟨c', hc', -, hexact⟩ := C52_constraint_layer_finite_difference solve hs svd hsvd hd _ orders (List.ofFn steps)
      1 1 le_rfl (by intro a; rw [hst a]; have := hk a; omega)
      s.constraint h5 hsize ((List.range logits.chan).map fun m : ℕ => logits.data i m) (by simpa using hlc)
    rw [hc'] at hcc
    injection hcc with hcc
    rw [← hcc]
    exact hexact p (by omega)

/-- Logits with the wrong number of channels are refused. -/
theorem C52_spatial_derivative_rejects (s : SpatialDeriv d) (inputs logits : Chan d ℝ) (h : (logits.chan : ℤ) ≠ s.constraint.nullspaceSize) :
    s.call inputs logits = .error .value := by
  unfold SpatialDeriv.call
  rw [if_pos h]

/-- `jnp.roll(inputs, roll)` is called without an axis, which rolls the flattened array.  From the first faces to
the centres of a two-dimensional grid the roll is `(1, 0)`, and the patches no longer hold the cells of the
stencil: the entry that should be the neighbour along the first axis is the neighbour along the second. -/
theorem C51_roll_defect (c : PolyConstraint) :
    (getRollAndShift ![1, 1 / 2] ![1 / 2, 1 / 2] : (Fin 2 → ℤ) × (Fin 2 → ℚ)) = (![1, 0], ![1 / 2, 0]) ∧
    ∃ z : Chan 2 ℝ, ({ stencilShape := ![1, 1], roll := ![1, 0], constraint := c, patchMethod := "roll", tileLayout := none } : SpatialDeriv 2).extractPatches
        { shape := ![2, 2], chan := 1, data := fun i _ => (i 1 : ℝ) } = .ok z ∧
      z.data ![0, 0] 0 ≠ (fun i : Idx 2 => (i 1 : ℝ)) ![(0 - 1) % 2, 0] := by
  constructor
  · unfold getRollAndShift
    refine Prod.ext ?_ ?_
    · funext a
      fin_cases a
      · show -⌊(1 / 2 : ℚ) - 1⌋ = 1
        norm_num
      · show -⌊(1 / 2 : ℚ) - 1 / 2⌋ = 0
        norm_num
    · funext a
      fin_cases a
      · show (1 / 2 : ℚ) - 1 + ((-⌊(1 / 2 : ℚ) - 1⌋ : ℤ) : ℚ) = 1 / 2
        norm_num
      · show (1 / 2 : ℚ) - 1 / 2 + ((-⌊(1 / 2 : ℚ) - 1 / 2⌋ : ℤ) : ℚ) = 0
        norm_num
  · obtain ⟨z, hz, -, -, zd⟩ := C51_extract_patches_roll (jnpRollFlat ({ shape := ![2, 2], chan := 1, data := fun i _ => (i 1 : ℝ) } : Chan 2 ℝ) ![1, 0])
      ![1, 1] (by intro a; fin_cases a <;> decide) rfl none
    refine ⟨z, hz, ?_⟩
    have := zd ![0, 0] ![0, 0] (by intro a; fin_cases a <;> exact ⟨le_rfl, by norm_num [jnpRollFlat]⟩)
      (by intro a; fin_cases a <;> exact ⟨le_rfl, by norm_num⟩)
    have e : ravelIdx (List.ofFn ![1, 1]) (List.ofFn (![0, 0] : Idx 2)) = 0 := by decide
    rw [e] at this
    rw [this]
    simp [Chan.per, jnpRollFlat, ravelIdx, unravelIdx]

end JaxCfd
