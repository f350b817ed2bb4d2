import Verif.Props.SpatialDerivative

/-!
# C52: towers and fused derivative layers (`ml/layers.py`)
-/

namespace JaxCfd
variable {d : ℕ}

/-- `SpatialDerivative` is `SpatialDerivativeFromLogits` applied to the output of its network: whatever the
network computes (with the advertised number of channels), the accuracy of the layer is that of
`C52_spatial_derivative_*`. -/
theorem C52_tower (s : SpatialDeriv d) (tower : Chan d ℝ → Except Err (Chan d ℝ)) (inputs : Chan d ℝ) (auxiliary : List (Chan d ℝ))
    (rolled logits patches : Chan d ℝ) (h1 : Chan.concat (jnpRollFlat inputs s.roll) (auxiliary.map fun a => jnpRollFlat a s.roll) = .ok rolled)
    (h2 : tower rolled = .ok logits) (h3 : s.extractPatches inputs = .ok patches) (h4 : (logits.chan : ℤ) = s.constraint.nullspaceSize) :
    s.callTower tower inputs auxiliary = s.call inputs logits := by
  unfold SpatialDeriv.callTower SpatialDeriv.call
  rw [if_neg (by simpa using h4), h3, h1]
  simp only [bind, Except.bind, h2]

/-! ### the block-diagonal constraint -/

/-- Column `c` of the product of a row vector with a matrix given by rows. -/
noncomputable def column (x : List ℝ) (rows : List (List ℝ)) (c : ℕ) : ℝ := (List.zipWith (fun t (r : List ℝ) => t * r.getD c 0) x rows).sum

theorem column_append (x : List ℝ) (r r' : List (List ℝ)) (c : ℕ) :
    column x (r ++ r') c = column (x.take r.length) r c + column (x.drop r.length) r' c := by
  unfold column
  induction r generalizing x with
  | nil => simp
  | cons v r ih =>
    cases x with
    | nil => simp
    | cons t x =>
      simp only [List.cons_append, List.zipWith_cons_cons, List.sum_cons, List.length_cons, List.take_succ_cons, List.drop_succ_cons]
      rw [ih x]; ring

theorem column_map (x : List ℝ) (rows : List (List ℝ)) (f : List ℝ → List ℝ) (c c' : ℕ) (h : ∀ r ∈ rows, (f r).getD c 0 = r.getD c' 0) :
    column x (rows.map f) c = column x rows c' := by
  unfold column
  induction rows generalizing x with
  | nil => simp
  | cons v rows ih =>
    cases x with
    | nil => simp
    | cons t x =>
      simp only [List.map_cons, List.zipWith_cons_cons, List.sum_cons]
      rw [ih x (fun r hr => h r (by simp [hr])), h v (by simp)]

theorem column_zero (x : List ℝ) (rows : List (List ℝ)) (f : List ℝ → List ℝ) (c : ℕ) (h : ∀ r ∈ rows, (f r).getD c 0 = 0) :
    column x (rows.map f) c = 0 := by
  unfold column
  induction rows generalizing x with
  | nil => simp
  | cons v rows ih =>
    cases x with
    | nil => simp
    | cons t x =>
      simp only [List.map_cons, List.zipWith_cons_cons, List.sum_cons]
      rw [ih x (fun r hr => h r (by simp [hr])), h v (by simp)]
      simp

theorem fused_column (ds : List (SpatialDeriv d)) (hrows : ∀ s ∈ ds, ∀ r ∈ s.constraint.nullspace, r.length = s.constraint.bias.length)
    (x : List ℝ) (k : ℕ) (hk : k < ds.length) (c : ℕ) (hc : c < ds[k].constraint.bias.length) :
    (ds.map fun s => s.constraint.bias).flatten.getD (((ds.take k).map fun s => s.constraint.bias.length).sum + c) 0 = ds[k].constraint.bias.getD c 0 ∧
    column x (blockDiag (ds.map fun s => s.constraint.nullspace) (ds.map fun s => s.constraint.bias.length))
      (((ds.take k).map fun s => s.constraint.bias.length).sum + c) =
    column ((x.drop ((ds.take k).map fun s => s.constraint.nullspace.length).sum).take ds[k].constraint.nullspace.length) ds[k].constraint.nullspace c := by
  induction ds generalizing k x with
  | nil => simp at hk
  | cons s ds ih =>
    simp only [List.map_cons, List.flatten_cons, blockDiag]
    rw [column_append, List.length_map]
    cases k with
    | zero =>
      simp only [List.getElem_cons_zero] at hc ⊢
      simp only [List.take_zero, List.map_nil, List.sum_nil, zero_add, List.drop_zero]
      constructor
      · rw [List.getD_append _ _ _ _ hc]
      · rw [column_zero (x.drop _) _ (fun r => List.replicate s.constraint.bias.length 0 ++ r) c (by
          intro r _
          rw [List.getD_append _ _ _ _ (by simpa using hc), List.getD_eq_getElem _ _ (by simpa using hc), List.getElem_replicate]), add_zero]
        rw [column_map _ _ (fun r => r ++ List.replicate (ds.map fun s => s.constraint.bias.length).sum 0) c c (by
          intro r hr
          rw [List.getD_append _ _ _ _ (by rw [hrows s (by simp) r hr]; exact hc)])]
    | succ k =>
      have hk' : k < ds.length := by simpa using hk
      simp only [List.getElem_cons_succ] at hc ⊢
      simp only [List.take_succ_cons, List.map_cons, List.sum_cons]
      obtain ⟨i1, i2⟩ := ih (fun s hs => hrows s (by simp [hs])) (x.drop s.constraint.nullspace.length) k hk' hc
      constructor
      · rw [List.getD_append_right _ _ _ _ (by omega), ← i1]
        congr 1
        omega
      · rw [column_zero (x.take _) _ (fun r => r ++ List.replicate (ds.map fun s => s.constraint.bias.length).sum 0) _ (by
          intro r hr
          rw [List.getD_append_right _ _ _ _ (by rw [hrows s (by simp) r hr]; omega)]
          by_cases h : s.constraint.bias.length + (List.map (fun s => s.constraint.bias.length) (List.take k ds)).sum + c - r.length <
              (List.replicate (ds.map fun s => s.constraint.bias.length).sum (0 : ℝ)).length
          · rw [List.getD_eq_getElem _ _ h, List.getElem_replicate]
          · rw [List.getD_eq_default _ _ (by omega)]), zero_add]
        rw [column_map _ _ (fun r => List.replicate s.constraint.bias.length 0 ++ r) _
          (((ds.take k).map fun s => s.constraint.bias.length).sum + c) (by
          intro r _
          rw [List.getD_append_right _ _ _ _ (by simp; omega)]
          congr 1
          simp
          omega), i2, List.drop_drop]

/-- The logits of layer `k` inside the stacked logits. -/
def logitsOf (ds : List (SpatialDeriv d)) (logits : Chan d ℝ) (k : ℕ) : Chan d ℝ :=
  logits.slice ((ds.take k).map fun s => s.constraint.nullspace.length).sum ((ds.take (k + 1)).map fun s => s.constraint.nullspace.length).sum

theorem take_succ_sum (ds : List (SpatialDeriv d)) (f : SpatialDeriv d → ℕ) (k : ℕ) (hk : k < ds.length) :
    ((ds.take (k + 1)).map f).sum = ((ds.take k).map f).sum + f ds[k] := by
  rw [List.take_add_one, List.getElem?_eq_getElem hk, List.map_append, List.sum_append]
  rfl

theorem take_sum_le (ds : List (SpatialDeriv d)) (f : SpatialDeriv d → ℕ) (k : ℕ) : ((ds.take k).map f).sum ≤ (ds.map f).sum := by
  conv_rhs => rw [← List.take_append_drop k ds, List.map_append, List.sum_append]
  omega

theorem logitsOf_list (ds : List (SpatialDeriv d)) (logits : Chan d ℝ) (k : ℕ) (hk : k < ds.length)
    (hl : logits.chan = (ds.map fun s => s.constraint.nullspace.length).sum) (i : Idx d) :
    (logitsOf ds logits k).chan = ds[k].constraint.nullspace.length ∧
    ((List.range (logitsOf ds logits k).chan).map fun m : ℕ => (logitsOf ds logits k).data i m) =
      (((List.range logits.chan).map fun m : ℕ => logits.data i m).drop ((ds.take k).map fun s => s.constraint.nullspace.length).sum).take
        ds[k].constraint.nullspace.length := by
  have h1 := take_succ_sum ds (fun s => s.constraint.nullspace.length) k hk
  have h2 := take_sum_le ds (fun s => s.constraint.nullspace.length) (k + 1)
  have hc : (logitsOf ds logits k).chan = ds[k].constraint.nullspace.length := by
    unfold logitsOf Chan.slice
    dsimp only
    omega
  refine ⟨hc, ?_⟩
  rw [hc]
  apply List.ext_getElem
  · rw [List.length_map, List.length_range, List.length_take, List.length_drop, List.length_map, List.length_range]
    omega
  · intro m hm1 hm2
    simp only [List.getElem_map, List.getElem_range, List.getElem_take, List.getElem_drop]
    unfold logitsOf Chan.slice
    dsimp only
    push_cast
    rfl

/-- What the constructor guarantees for a fused list of layers: square blocks, one coefficient per stencil point. -/
def Fusable (ds : List (SpatialDeriv d)) : Prop :=
  (∀ s ∈ ds, ∀ r ∈ s.constraint.nullspace, r.length = s.constraint.bias.length) ∧
  (∀ s ∈ ds, s.constraint.bias.length = (List.ofFn s.stencilShape).prod) ∧
  (∀ s ∈ ds, (s.constraint.nullspace.length : ℤ) = s.constraint.nullspaceSize) ∧
  (∀ s ∈ ds, ∀ s' ∈ ds, s.tileLayout = s'.tileLayout) ∧ ∀ s ∈ ds, ∀ a, s.roll a = 0

theorem blockDiag_length (ds : List (SpatialDeriv d)) :
    (blockDiag (ds.map fun s => s.constraint.nullspace) (ds.map fun s => s.constraint.bias.length)).length =
      (ds.map fun s => s.constraint.nullspace.length).sum := by
  induction ds with
  | nil => rfl
  | cons s ds ih => simp only [List.map_cons, blockDiag, List.length_append, List.length_map, List.sum_cons, ih]

theorem bias_sum (ds : List (SpatialDeriv d)) : ((ds.map fun s => s.constraint.bias).flatten).length = (ds.map fun s => s.constraint.bias.length).sum := by
  rw [List.length_flatten, List.map_map]
  rfl

theorem fusedCoefficients_block {ds : List (SpatialDeriv d)} (hf : Fusable ds) {logits : Chan d ℝ}
    (hl : logits.chan = (ds.map fun s => s.constraint.nullspace.length).sum) :
    ∃ all, fusedCoefficients ds logits = .ok all ∧ all.shape = logits.shape ∧ all.chan = (ds.map fun s => s.constraint.bias.length).sum ∧
    ∀ (k : ℕ) (hk : k < ds.length), ∃ co, ds[k].constraint.applyChan (logitsOf ds logits k) = .ok co ∧ co.shape = logits.shape ∧
      co.chan = ds[k].constraint.bias.length ∧
      ∀ (i : Idx d) (c : ℕ), c < ds[k].constraint.bias.length →
        all.data i (((ds.take k).map fun s => s.constraint.bias.length).sum + c : ℕ) = co.data i c := by
  unfold fusedCoefficients PolyConstraint.applyChan
  dsimp only
  rw [blockDiag_length, if_neg (by simpa using hl)]
  refine ⟨_, rfl, rfl, bias_sum ds, ?_⟩
  intro k hk
  rw [if_neg (by rw [(logitsOf_list ds logits k hk hl 0).1]; simp)]
  refine ⟨_, rfl, rfl, rfl, ?_⟩
  intro i c hc
  dsimp only
  rw [Int.toNat_natCast, Int.toNat_natCast]
  obtain ⟨h1, h2⟩ := fused_column ds hf.1 ((List.range logits.chan).map fun m : ℕ => logits.data i m) k hk c hc
  rw [h1, (logitsOf_list ds logits k hk hl i).2]
  unfold column at h2
  rw [h2]

/-- Fused evaluation (`fuse_spatial_derivative_layers`, patches not fused) of layer `k` returns exactly what
that layer returns on its own part of the stacked logits. -/
theorem C52_fused_layers (ds : List (SpatialDeriv d)) (hf : Fusable ds) (logits inputs : Chan d ℝ)
    (hl : logits.chan = (ds.map fun s => s.constraint.nullspace.length).sum) (k : Fin ds.length) :
    fusedDerivative ds logits false k inputs = (ds.get k).call inputs (logitsOf ds logits k) := by
  obtain ⟨all, ha, as, ac, ad⟩ := fusedCoefficients_block hf hl
  obtain ⟨co, hco, cs, cc, cd⟩ := ad k k.2
  have hsz : ∀ m, ((ds.map fun s => (List.ofFn s.stencilShape).prod).take m).sum = ((ds.take m).map fun s => s.constraint.bias.length).sum := by
    intro m
    rw [← List.map_take]
    congr 1
    apply List.map_congr_left
    intro s hs
    exact (hf.2.1 s (List.mem_of_mem_take hs)).symm
  have hlen := (logitsOf_list ds logits k k.2 hl 0).1
  unfold fusedDerivative SpatialDeriv.call
  rw [if_neg (by push Not; exact hf.2.2.2.1), if_neg (by
    push Not
    rw [hlen]
    exact hf.2.2.1 _ (List.getElem_mem k.2)), ha]
  simp only [bind, Except.bind]
  rw [if_neg (by push Not; exact hf.2.2.2.2)]
  have hco' : (ds.get k).constraint.applyChan (logitsOf ds logits k) = .ok co := hco
  rw [hco']
  simp only [Bool.false_eq_true, if_false]
  rw [hsz, hsz]
  cases hp : (ds.get k).extractPatches inputs with
  | error e => rfl
  | ok z =>
    dsimp only
    have hsucc := take_succ_sum ds (fun s => s.constraint.bias.length) k k.2
    have hle := take_sum_le ds (fun s => s.constraint.bias.length) (k + 1)
    have hchan : (all.slice ((ds.take k).map fun s => s.constraint.bias.length).sum ((ds.take (k + 1)).map fun s => s.constraint.bias.length).sum).chan = co.chan := by
      unfold Chan.slice
      dsimp only
      rw [cc, ac]
      omega
    have hshape : (all.slice ((ds.take k).map fun s => s.constraint.bias.length).sum ((ds.take (k + 1)).map fun s => s.constraint.bias.length).sum).shape = co.shape := by
      unfold Chan.slice
      dsimp only
      rw [as, cs]
    unfold applyCoefficients
    rw [hchan, hshape]
    split_ifs with h1
    · rfl
    · push Not at h1
      congr 2
      funext i _
      apply Finset.sum_congr rfl
      intro c hc
      rw [Finset.mem_range, ← h1.2, cc] at hc
      congr 1
      have := cd i c hc
      unfold Chan.slice
      dsimp only
      rw [← this]
      push_cast
      rfl

/-- The same with fused patches, when all stencils have one shape and the convolution can be tiled. -/
theorem C52_fused_patches (hd : d = 1 ∨ d = 2 ∨ d = 3) (ds : List (SpatialDeriv d)) (hf : Fusable ds) (logits inputs : Chan d ℝ)
    (hl : logits.chan = (ds.map fun s => s.constraint.nullspace.length).sum) (hls : logits.shape = inputs.shape)
    (kk : Fin d → ℕ) (hkk : ∀ a, 0 < kk a) (hshape : ∀ s ∈ ds, s.stencilShape = kk) (hm : ∀ s ∈ ds, s.patchMethod = "roll" ∨ s.patchMethod = "conv")
    (hx : ∀ a, 0 < inputs.shape a) (hc1 : inputs.chan = 1)
    (L : Fin d → ℕ) (hlay : ∀ s ∈ ds, s.tileLayout = some L)
    (hL : ∀ a, 0 < L a) (hdiv : ∀ a, L a ∣ inputs.shape a) (hpad : ∀ a, kk a / 2 ≤ inputs.shape a / L a) (k : Fin ds.length) :
    ∃ z z' : Chan d ℝ, fusedDerivative ds logits true k inputs = .ok z ∧ (ds.get k).call inputs (logitsOf ds logits k) = .ok z' ∧ z.Eqv z' := by
  obtain ⟨all, ha, as, ac, ad⟩ := fusedCoefficients_block hf hl
  obtain ⟨co, hco, cs, cc, cd⟩ := ad k k.2
  have hmem : ds.get k ∈ ds := List.getElem_mem k.2
  have hb : ∀ s ∈ ds, s.constraint.bias.length = ∏ a, kk a := by
    intro s hs
    rw [hf.2.1 s hs, hshape s hs, List.prod_ofFn]
  have hsum : ∀ m, m ≤ ds.length → ((ds.take m).map fun s => s.constraint.bias.length).sum = m * ∏ a, kk a := by
    intro m hm
    have : ((ds.take m).map fun s => s.constraint.bias.length) = List.replicate m (∏ a, kk a) := by
      rw [List.eq_replicate_iff]
      refine ⟨by simp [hm], ?_⟩
      intro b hb'
      obtain ⟨s, hs, rfl⟩ := List.mem_map.1 hb'
      exact hb s (List.mem_of_mem_take hs)
    rw [this]; simp
  have hsz : ∀ m, ((ds.map fun s => (List.ofFn s.stencilShape).prod).take m).sum = ((ds.take m).map fun s => s.constraint.bias.length).sum := by
    intro m
    rw [← List.map_take]
    congr 1
    apply List.map_congr_left
    intro s hs
    exact (hf.2.1 s (List.mem_of_mem_take hs)).symm
  obtain ⟨n, hn⟩ : ∃ n, ds.length = n + 1 := ⟨ds.length - 1, by have := k.2; omega⟩
  have hrep : (ds.map fun s => s.stencilShape) = List.replicate (n + 1) kk := by
    rw [List.eq_replicate_iff]
    refine ⟨by simp [hn], ?_⟩
    intro b hb'
    obtain ⟨s, hs, rfl⟩ := List.mem_map.1 hb'
    exact hshape s hs
  obtain ⟨fp, hfp, fs, fc, fd⟩ := C51_fused_patches hd inputs hx kk hkk hc1 n L hL hdiv hpad
  have hpa : ∃ z : Chan d ℝ, (ds.get k).extractPatches inputs = .ok z ∧ z.shape = inputs.shape ∧ z.chan = ∏ a, kk a ∧
      ∀ i o : Idx d, InR inputs.shape i → InR kk o →
        z.data i (ravelIdx (List.ofFn kk) (List.ofFn o)) = (jnpRollFlat inputs (ds.get k).roll).per (fun a => i a + o a - ((kk a - 1) / 2 : ℕ)) 0 := by
    have := patches_available (ds.get k) inputs hx hc1 (by intro a; rw [hshape _ hmem]; exact hkk a) (by
      rw [hshape _ hmem, hlay _ hmem]
      rcases hm _ hmem with h | h
      · exact Or.inl h
      · exact Or.inr ⟨h, hd, L, rfl, hL, hdiv, hpad⟩)
    rw [hshape _ hmem] at this
    exact this
  obtain ⟨z, hz, zs, zc, zd⟩ := hpa
  have hall : (ds.map fun s => s.constraint.bias.length).sum = (n + 1) * ∏ a, kk a := by
    have := hsum ds.length le_rfl
    rw [List.take_length, hn] at this
    exact this
  have hmul : Chan.mul all fp = .ok { shape := all.shape, chan := all.chan, data := fun i c => all.data i c * fp.data i c } := by
    unfold Chan.mul
    rw [if_neg (by push Not; exact ⟨by rw [as, fs, hls], by rw [ac, fc, hall]⟩)]
  have hlen := (logitsOf_list ds logits k k.2 hl 0).1
  have hkb : (ds.get k).constraint.bias.length = ∏ a, kk a := hb _ hmem
  have hco' : (ds.get k).constraint.applyChan (logitsOf ds logits k) = .ok co := hco
  have hcall : (ds.get k).call inputs (logitsOf ds logits k) = .ok
      { shape := z.shape, chan := 1, data := fun i _ => ∑ c ∈ Finset.range z.chan, co.data i c * z.data i c } := by
    unfold SpatialDeriv.call
    rw [if_neg (by
      push Not
      rw [hlen]
      exact hf.2.2.1 _ hmem), hco', hz]
    simp only [bind, Except.bind]
    unfold applyCoefficients
    rw [if_neg (by
      push Not
      refine ⟨by rw [cs, hls, zs], ?_⟩
      rw [cc, zc]
      exact hkb)]
  refine ⟨Chan.sumLast (Chan.slice { shape := all.shape, chan := all.chan, data := fun i c => all.data i c * fp.data i c }
    ((ds.take k).map fun s => s.constraint.bias.length).sum ((ds.take (k + 1)).map fun s => s.constraint.bias.length).sum), _, ?_, hcall, ?_⟩
  · unfold fusedDerivative
    rw [if_neg (by push Not; exact hf.2.2.2.1), ha]
    simp only [bind, Except.bind]
    rw [if_neg (by push Not; exact hf.2.2.2.2), if_pos trivial, hrep, hlay _ hmem, hfp]
    dsimp only
    rw [hmul, hsz, hsz]
    rfl
  · have h1 := hsum k (by have := k.2; omega)
    have h2 := hsum (k + 1) k.2
    have h3 : (k + 1 : ℕ) * ∏ a, kk a ≤ (n + 1) * ∏ a, kk a := Nat.mul_le_mul_right _ (by have := k.2; omega)
    have h4 : (k + 1 : ℕ) * ∏ a, kk a = k * (∏ a, kk a) + ∏ a, kk a := by ring
    refine ⟨by show all.shape = z.shape; rw [as, hls, zs], rfl, ?_⟩
    intro i c hi _ _
    have hi' : InR inputs.shape i := by
      have : InR all.shape i := hi
      rw [as, hls] at this
      exact this
    show ∑ c ∈ Finset.range (min _ all.chan - min _ all.chan), (all.data i (_ + (c : ℤ)) * fp.data i (_ + (c : ℤ))) =
      ∑ c ∈ Finset.range z.chan, co.data i c * z.data i c
    have hr : min (((ds.take (k + 1)).map fun s => s.constraint.bias.length).sum) all.chan -
        min (((ds.take k).map fun s => s.constraint.bias.length).sum) all.chan = z.chan := by
      rw [h1, h2, ac, hall, zc]
      generalize (∏ a, kk a) = P at *
      omega
    rw [hr]
    apply Finset.sum_congr rfl
    intro m hmr
    rw [Finset.mem_range, zc] at hmr
    have e1 := cd i m (by rw [show ds[(k : ℕ)] = ds.get k from rfl, hkb]; exact hmr)
    have hmz : ((m : ℕ) : ℤ) < (layoutSize kk : ℕ) := by unfold layoutSize; rw [List.prod_ofFn]; exact_mod_cast hmr
    have e := tileNum_tileIdx (L := kk) (b := (m : ℤ)) (by omega) hmz
    unfold tileNum at e
    have e2 := fd i (tileIdx kk m) k hi' (tileIdx_inR hkk m) (by have := k.2; omega)
    have e3 := zd i (tileIdx kk m) hi' (tileIdx_inR hkk m)
    rw [e] at e2 e3
    rw [jnpRollFlat_per inputs hx hc1 _ (Or.inl (hf.2.2.2.2 _ hmem))] at e3
    have e4 : ∀ a, (ds.get k).roll a = 0 := hf.2.2.2.2 _ hmem
    simp only [e4, sub_zero] at e3
    rw [← e1, e3, ← e2, h1]
    push_cast
    rfl

/-- Layers that need a roll, or with different tile layouts, are refused. -/
theorem C52_fused_rejects (ds : List (SpatialDeriv d)) (logits inputs all : Chan d ℝ) (fuse : Bool) (k : Fin ds.length) :
    ((∃ s ∈ ds, ∃ s' ∈ ds, s.tileLayout ≠ s'.tileLayout) → fusedDerivative ds logits fuse k inputs = .error .value) ∧
    (fusedCoefficients ds logits = .ok all → (∃ s ∈ ds, ∃ a, s.roll a ≠ 0) → fusedDerivative ds logits fuse k inputs = .error .value) := by
  constructor
  · intro h
    unfold fusedDerivative
    rw [if_pos h]
  · intro ha h
    unfold fusedDerivative
    split_ifs with h1
    · rfl
    · rw [ha]
      rfl

/-- The three-point first derivative at cell centres, as a layer. -/
theorem three_point_deriv : ∃ s, mkSpatialDeriv (d := 1) solveAny svdSample (fun _ => 3) (fun _ => 1 / 2) (fun _ => 1 / 2) (fun _ => 1) (fun _ => 1)
    "roll" none .finiteDifference = .ok s ∧ s.constraint.nullspaceSize = 1 ∧ Fusable [s, s] := by
  obtain ⟨pc, h1, h2, h3, h4⟩ := three_point_layer
  have hroll : (getRollAndShift (d := 1) (fun _ => 1 / 2) (fun _ => 1 / 2)) = (fun _ => 0, fun _ => 0) := by
    unfold getRollAndShift
    norm_num
  have hst : (List.ofFn (getStencils (d := 1) (fun _ => 3) (fun _ => 0) (fun _ => 1))) = [[-1, 0, 1]] := by
    simp only [List.ofFn_succ, List.ofFn_zero, getStencils]
    have : stencilCells 3 = [-1, 0, 1] := by decide
    rw [this]
    norm_num
  refine ⟨{ stencilShape := fun _ => 3, roll := fun _ => 0, constraint := pc, patchMethod := "roll", tileLayout := none }, ?_, h2, ?_⟩
  · unfold mkSpatialDeriv
    rw [hroll]
    dsimp only
    rw [hst]
    have e1 : List.ofFn (fun _ : Fin 1 => 1) = [1] := by simp
    have e2 : List.ofFn (fun _ : Fin 1 => (1 : ℝ)) = [1] := by simp
    rw [e1, e2, h1]
    rfl
  · refine ⟨?_, ?_, ?_, ?_, ?_⟩
    · intro s hs r hr
      simp only [List.mem_cons, List.not_mem_nil, or_false, or_self] at hs
      subst hs
      dsimp only at hr ⊢
      rw [h3] at hr
      rw [List.mem_singleton.1 hr, h4]
      rfl
    · intro s hs
      simp only [List.mem_cons, List.not_mem_nil, or_false, or_self] at hs
      subst hs
      simp [h4]
    · intro s hs
      simp only [List.mem_cons, List.not_mem_nil, or_false, or_self] at hs
      subst hs
      simp [h2, h3]
    · intro s hs s' hs'
      simp only [List.mem_cons, List.not_mem_nil, or_false, or_self] at hs hs'
      rw [hs, hs']
    · intro s hs a
      simp only [List.mem_cons, List.not_mem_nil, or_false, or_self] at hs
      subst hs
      rfl

/-- On five points holding `x_j = j`, the derivative at the middle point is 1 for every logit `t`. -/
example (t : ℝ) : ∃ s : SpatialDeriv 1, ∃ out : Chan 1 ℝ, s.call { shape := fun _ => 5, chan := 1, data := fun i _ => (i 0 : ℝ) }
    { shape := fun _ => 5, chan := 1, data := fun _ _ => t } = .ok out ∧ out.data (fun _ => 2) 0 = derivAtZero (fun _ : Fin 1 => 1) (MvPolynomial.X 0 + MvPolynomial.C 2) := by
  obtain ⟨s, h1, h2, -⟩ := three_point_deriv
  obtain ⟨out, h3, -, -, h4⟩ := C52_spatial_derivative_finite_difference solveAny solveAny_solves svdSample svdSample_null (d := 1) Nat.one_pos
    (fun _ => 3) (fun _ => 1 / 2) (fun _ => 1 / 2) (fun _ => 1) (fun _ => 1) 1 (fun _ => rfl) "roll" none (fun _ => by norm_num) (Or.inr rfl) s h1 (by omega)
    { shape := fun _ => 5, chan := 1, data := fun i _ => (i 0 : ℝ) } { shape := fun _ => 5, chan := 1, data := fun _ _ => t } (fun _ => by norm_num) rfl
    (Or.inl rfl) rfl (by rw [h2]; rfl) (MvPolynomial.X 0 + MvPolynomial.C 2)
    ((MvPolynomial.totalDegree_add _ _).trans (by simp [MvPolynomial.totalDegree_X])) (fun _ => 2) (fun _ => by norm_num) (by
      intro o ho
      have h0 := ho 0
      norm_num at h0
      have hc : stencilCell (fun _ : Fin 1 => 3) (fun _ => 1 / 2) (fun _ => 1 / 2) (fun _ => 2) o = fun a => 1 + o a := by
        funext a
        unfold stencilCell
        norm_num
        ring
      rw [hc]
      unfold Chan.per relativePosition
      norm_num
      rw [Int.emod_eq_of_lt (by omega) (by omega)]
      push_cast
      ring)
  exact ⟨s, out, h3, h4⟩

end JaxCfd
