import Verif.Lemmas.Patches
import Verif.Props.Tiling

/-!
# C51: stencils and patches (`ml/layers_util.py`)
-/

namespace JaxCfd
variable {d : ℕ} {K : Type}

/-- `get_roll_and_shift` splits `target - input` into a whole number of cells and a fraction in `[0, 1)`. -/
theorem C51_roll_and_shift (inputOffset targetOffset : Fin d → ℚ) (a : Fin d) :
    0 ≤ (getRollAndShift inputOffset targetOffset).2 a ∧ (getRollAndShift inputOffset targetOffset).2 a < 1 ∧
    targetOffset a - inputOffset a =
      (getRollAndShift inputOffset targetOffset).2 a - ((getRollAndShift inputOffset targetOffset).1 a : ℤ) := by
  unfold getRollAndShift
  dsimp only
  have h1 := Int.floor_le (targetOffset a - inputOffset a)
  have h2 := Int.lt_floor_add_one (targetOffset a - inputOffset a)
  push_cast
  refine ⟨by linarith, by linarith, by ring⟩

/-- No roll is needed exactly when the target lies in `[0, 1)` cells after the input. -/
theorem C51_roll_zero_iff (inputOffset targetOffset : Fin d → ℚ) (a : Fin d) :
    (getRollAndShift inputOffset targetOffset).1 a = 0 ↔
      inputOffset a ≤ targetOffset a ∧ targetOffset a < inputOffset a + 1 := by
  unfold getRollAndShift
  dsimp only
  rw [neg_eq_zero, Int.floor_eq_zero_iff, Set.mem_Ico]
  constructor
  · rintro ⟨h1, h2⟩; exact ⟨by linarith, by linarith⟩
  · rintro ⟨h1, h2⟩; exact ⟨by linarith, by linarith⟩

/-- `get_stencils` lists, for the cells `-(size-1)//2 .. size//2` around the current one, their position
relative to the target: the `j`-th entry is the distance from the target at `offset` to that cell. -/
theorem C51_stencils (sizes : Fin d → ℕ) (offset : Fin d → ℚ) (steps : Fin d → ℝ) (a : Fin d) :
    (getStencils sizes offset steps a).length = sizes a ∧
    ∀ j < sizes a, (getStencils sizes offset steps a).getD j 0 =
      ((j : ℝ) - (((sizes a - 1) / 2 : ℕ) : ℝ) - (offset a : ℝ)) * steps a := by
  constructor
  · unfold getStencils
    rw [List.length_map, stencilCells_length]
  · intro j hj
    unfold getStencils
    rw [List.getD_eq_getElem _ _ (by rw [List.length_map, stencilCells_length]; exact hj), List.getElem_map]
    have : (stencilCells (sizes a))[j]'(by rw [stencilCells_length]; exact hj) = (j : ℤ) - ((sizes a - 1) / 2 : ℕ) := by
      rw [← stencilCells_getD hj 0, List.getD_eq_getElem]
    rw [this]
    generalize (sizes a - 1) / 2 = m
    push_cast
    ring

/-- The stencil of half-cell targets and even sizes, or same-cell targets and odd sizes, is symmetric. -/
theorem C51_stencil_symmetric (sizes : Fin d → ℕ) (offset : Fin d → ℚ) (steps : Fin d → ℝ) (a : Fin d)
    (h : (Even (sizes a) ∧ 0 < sizes a ∧ offset a = 1 / 2) ∨ (Odd (sizes a) ∧ offset a = 0)) (j : ℕ) (hj : j < sizes a) :
    (getStencils sizes offset steps a).getD (sizes a - 1 - j) 0 = -(getStencils sizes offset steps a).getD j 0 := by
  rw [(C51_stencils sizes offset steps a).2 j hj, (C51_stencils sizes offset steps a).2 (sizes a - 1 - j) (by omega)]
  rcases h with ⟨⟨m, hm⟩, h0, ho⟩ | ⟨⟨m, hm⟩, ho⟩
  · rw [ho]
    have e1 : (sizes a - 1) / 2 = m - 1 := by omega
    rw [e1, Nat.cast_sub (by omega), Nat.cast_sub (by omega), Nat.cast_sub (by omega), hm]
    push_cast
    ring
  · rw [ho]
    have e1 : (sizes a - 1) / 2 = m := by omega
    rw [e1, Nat.cast_sub (by omega), Nat.cast_sub (by omega), hm]
    push_cast
    ring

/-- `extract_patches` by rolling: output channel number `ravel(o)` at point `i` is the periodic input at
`i + o - (k-1)//2`, for every entry `o` of the patch. -/
theorem C51_extract_patches_roll [Semiring K] (x : Chan d K) (k : Fin d → ℕ) (hk : ∀ a, 0 < k a) (hc : x.chan = 1)
    (layout : Option (Fin d → ℕ)) :
    ∃ z : Chan d K, extractPatches x k "roll" layout = .ok z ∧ z.shape = x.shape ∧ z.chan = ∏ a, k a ∧
      ∀ i o : Idx d, InR x.shape i → InR k o →
        z.data i (ravelIdx (List.ofFn k) (List.ofFn o)) = x.per (fun a => i a + o a - ((k a - 1) / 2 : ℕ)) 0 := by
  obtain ⟨z, hz, zs, zc, zd⟩ := extractPatchesRoll_ok x k hk hc
  refine ⟨z, ?_, zs, by rw [zc, List.prod_ofFn], ?_⟩
  · unfold extractPatches
    rw [if_pos rfl]
    exact hz
  · intro i o hi ho
    have hb := ravelIdx_bounds (lInR_ofFn ho)
    rw [zd i _ hi hb.1 hb.2]
    have : tileIdx k (ravelIdx (List.ofFn k) (List.ofFn o)) = o := tileIdx_tileNum ho
    rw [this]
    congr 1
    funext a
    ring

theorem periodicConvolution_ok [Semiring K] (hd : d = 1 ∨ d = 2 ∨ d = 3) (x : Chan d K) (hx : ∀ a, 0 < x.shape a)
    (k : Fin d → ℕ) (hk : ∀ a, 0 < k a) (cout : ℕ) (kernel : Idx d → ℤ → ℤ → K)
    (L : Fin d → ℕ) (hL : ∀ a, 0 < L a) (hdiv : ∀ a, L a ∣ x.shape a) (hpad : ∀ a, k a / 2 ≤ x.shape a / L a) :
    ∃ z : Chan d K, periodicConvolution k x.chan cout kernel (some L) x = .ok z ∧ z.shape = x.shape ∧ z.chan = cout ∧
      ∀ (i : Idx d) (co : ℤ), InR x.shape i → 0 ≤ co → co < cout →
        z.data i co = ∑ o ∈ Fintype.piFinset fun a => Finset.range (k a), ∑ ci ∈ Finset.range x.chan,
          x.per (fun a => i a + (o a : ℕ) - ((k a - 1) / 2 : ℕ)) ci * kernel (fun a => (o a : ℤ)) ci co := by
  have hd' : tileRank d = true := by rcases hd with rfl | rfl | rfl <;> rfl
  have hp := fun a => getPadding_sum (hk a)
  obtain ⟨z, hz, zs, zc, zd⟩ := C50_convolution hd k hk cout kernel 1 x hx (fun a => getPadding (k a))
    (fun a => by have := hp a; omega) L hL hdiv
    (fun a => by have := hp a; have := hpad a; have : (getPadding (k a)).1 ≤ k a / 2 := by omega
                 exact this.trans (hpad a))
    (fun a => by have := hp a; rw [this.2.1]; exact hpad a)
  refine ⟨z, ?_, zs, zc, ?_⟩
  · unfold periodicConvolution
    rw [if_neg (by simp [hd'])]
    exact hz
  · intro i co hi c0 c1
    rw [zd i co hi c0 c1]
    simp only [(hp _).1, Nat.cast_one, one_mul]

/-- `extract_patches` by convolution returns the same entries, for every tile layout. -/
theorem C51_extract_patches_conv [Semiring K] (hd : d = 1 ∨ d = 2 ∨ d = 3) (x : Chan d K) (hx : ∀ a, 0 < x.shape a)
    (k : Fin d → ℕ) (hk : ∀ a, 0 < k a) (hc : x.chan = 1)
    (L : Fin d → ℕ) (hL : ∀ a, 0 < L a) (hdiv : ∀ a, L a ∣ x.shape a) (hpad : ∀ a, k a / 2 ≤ x.shape a / L a) :
    ∃ z : Chan d K, extractPatches x k "conv" (some L) = .ok z ∧ z.shape = x.shape ∧ z.chan = ∏ a, k a ∧
      ∀ i o : Idx d, InR x.shape i → InR k o →
        z.data i (ravelIdx (List.ofFn k) (List.ofFn o)) = x.per (fun a => i a + o a - ((k a - 1) / 2 : ℕ)) 0 := by
  obtain ⟨z, hz, zs, zc, zd⟩ := periodicConvolution_ok hd x hx k hk (List.ofFn k).prod (patchKernel k) L hL hdiv hpad
  refine ⟨z, ?_, zs, by rw [zc, List.prod_ofFn], ?_⟩
  · unfold extractPatches extractPatchesConv
    rw [if_neg (by decide), if_pos rfl, ← hc]
    exact hz
  · intro i o hi ho
    have hb := ravelIdx_bounds (lInR_ofFn ho)
    rw [zd i _ hi hb.1 hb.2, hc]
    simp only [Finset.range_one, Finset.sum_singleton, Nat.cast_zero]
    rw [sum_patchKernel k _ hk hb.1 hb.2 (fun o => x.per (fun a => i a + o a - ((k a - 1) / 2 : ℕ)) 0)]
    have : tileIdx k (ravelIdx (List.ofFn k) (List.ofFn o)) = o := tileIdx_tileNum ho
    rw [this]

/-- The two methods give the same patches. -/
theorem C51_methods_agree [Semiring K] (hd : d = 1 ∨ d = 2 ∨ d = 3) (x : Chan d K) (hx : ∀ a, 0 < x.shape a)
    (k : Fin d → ℕ) (hk : ∀ a, 0 < k a) (hc : x.chan = 1)
    (L : Fin d → ℕ) (hL : ∀ a, 0 < L a) (hdiv : ∀ a, L a ∣ x.shape a) (hpad : ∀ a, k a / 2 ≤ x.shape a / L a) :
    ∃ z z' : Chan d K, extractPatches x k "roll" (some L) = .ok z ∧ extractPatches x k "conv" (some L) = .ok z' ∧ z.Eqv z' := by
  obtain ⟨z, hz, zs, zc, zd⟩ := C51_extract_patches_roll x k hk hc (some L)
  obtain ⟨z', hz', zs', zc', zd'⟩ := C51_extract_patches_conv hd x hx k hk hc L hL hdiv hpad
  refine ⟨z, z', hz, hz', zs.trans zs'.symm, zc.trans zc'.symm, ?_⟩
  intro i c hi c0 c1
  rw [zs] at hi
  have c1' : c < (layoutSize k : ℕ) := by rw [zc, ← List.prod_ofFn] at c1; exact c1
  have e := tileNum_tileIdx c0 c1'
  unfold tileNum at e
  rw [← e, zd i _ hi (tileIdx_inR hk c), zd' i _ hi (tileIdx_inR hk c)]

/-- An unknown method, and rolling an array with several channels, are refused. -/
theorem C51_extract_patches_rejects [Semiring K] (x : Chan d K) (k : Fin d → ℕ) (layout : Option (Fin d → ℕ)) :
    (∀ m, m ≠ "roll" → m ≠ "conv" → extractPatches x k m layout = .error .value) ∧
    (x.chan ≠ 1 → extractPatches x k "roll" layout = .error .value) := by
  constructor
  · intro m h1 h2
    unfold extractPatches
    rw [if_neg h1, if_neg h2]
  · intro h
    unfold extractPatches extractPatchesRoll
    rw [if_pos rfl, if_pos h]

/-- `fused_extract_patches` of `m` equal patch shapes returns `m` copies of the patches, one after the
other; unequal shapes are refused. -/
theorem C51_fused_patches [Semiring K] (hd : d = 1 ∨ d = 2 ∨ d = 3) (x : Chan d K) (hx : ∀ a, 0 < x.shape a)
    (k : Fin d → ℕ) (hk : ∀ a, 0 < k a) (hc : x.chan = 1) (m : ℕ)
    (L : Fin d → ℕ) (hL : ∀ a, 0 < L a) (hdiv : ∀ a, L a ∣ x.shape a) (hpad : ∀ a, k a / 2 ≤ x.shape a / L a) :
    ∃ z : Chan d K, fusedExtractPatches x (List.replicate (m + 1) k) (some L) = .ok z ∧ z.shape = x.shape ∧
      z.chan = (m + 1) * ∏ a, k a ∧
      ∀ (i o : Idx d) (q : ℕ), InR x.shape i → InR k o → q < m + 1 →
        z.data i ((q * ∏ a, k a : ℕ) + ravelIdx (List.ofFn k) (List.ofFn o)) =
          x.per (fun a => i a + o a - ((k a - 1) / 2 : ℕ)) 0 := by
  obtain ⟨z, hz, zs, zc, zd⟩ := periodicConvolution_ok hd x hx k hk ((m + 1) * (List.ofFn k).prod)
    (fun o ci p => patchKernel k o ci (p % ((List.ofFn k).prod : ℕ))) L hL hdiv hpad
  refine ⟨z, ?_, zs, by rw [zc, List.prod_ofFn], ?_⟩
  · unfold fusedExtractPatches
    rw [List.replicate_succ]
    dsimp only
    rw [if_neg]
    · rw [hc] at hz
      simpa using hz
    · rintro ⟨k', h, hne⟩
      exact hne (List.eq_of_mem_replicate h)
  · intro i o q hi ho hq
    have hb := ravelIdx_bounds (lInR_ofFn ho)
    rw [← List.prod_ofFn]
    rw [zd i _ hi (by have := hb.1; positivity) (by
      have h1 := hb.2
      have h2 : (q + 1) * (List.ofFn k).prod ≤ (m + 1) * (List.ofFn k).prod := Nat.mul_le_mul_right _ hq
      have h3 : (q + 1) * (List.ofFn k).prod = q * (List.ofFn k).prod + (List.ofFn k).prod := by ring
      omega), hc]
    simp only [Finset.range_one, Finset.sum_singleton, Nat.cast_zero]
    have e : ((q * (List.ofFn k).prod : ℕ) + ravelIdx (List.ofFn k) (List.ofFn o)) % (((List.ofFn k).prod : ℕ) : ℤ) = ravelIdx (List.ofFn k) (List.ofFn o) := by
      rw [Nat.cast_mul, add_comm, Int.add_mul_emod_self_right, Int.emod_eq_of_lt hb.1 hb.2]
    rw [e, sum_patchKernel k _ hk hb.1 hb.2 (fun o => x.per (fun a => i a + o a - ((k a - 1) / 2 : ℕ)) 0)]
    have : tileIdx k (ravelIdx (List.ofFn k) (List.ofFn o)) = o := tileIdx_tileNum ho
    rw [this]

theorem C51_fused_rejects [Semiring K] (x : Chan d K) (k k' : Fin d → ℕ) (h : k ≠ k') (ks : List (Fin d → ℕ)) (hk : k' ∈ ks)
    (layout : Option (Fin d → ℕ)) : fusedExtractPatches x (k :: ks) layout = .error .value := by
  unfold fusedExtractPatches
  dsimp only
  rw [if_pos ⟨k', hk, h.symm⟩]

/-- A 4×6 array cut into 2×3 tiles, patches of shape 2×3. -/
example : ∃ z z' : Chan 2 ℤ,
    extractPatches { shape := ![4, 6], chan := 1, data := fun i _ => i 0 * 6 + i 1 } ![2, 3] "roll" (some ![2, 3]) = .ok z ∧
    extractPatches { shape := ![4, 6], chan := 1, data := fun i _ => i 0 * 6 + i 1 } ![2, 3] "conv" (some ![2, 3]) = .ok z' ∧
    z.Eqv z' :=
  C51_methods_agree (Or.inr (Or.inl rfl)) ({ shape := ![4, 6], chan := 1, data := fun i _ => i 0 * 6 + i 1 } : Chan 2 ℤ)
    (by intro a; fin_cases a <;> decide) ![2, 3] (by intro a; fin_cases a <;> decide) rfl ![2, 3]
    (by intro a; fin_cases a <;> decide) (by intro a; fin_cases a <;> decide) (by intro a; fin_cases a <;> decide)

end JaxCfd
