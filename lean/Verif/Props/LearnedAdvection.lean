import Verif.Props.LearnedInterpolation
import Verif.Props.Metrics
import Verif.Props.PressureSolve

/-!
# C63: advection with learned interpolation, and the modular Navier-Stokes model
-/

namespace JaxCfd.ML
variable {d : ℕ}

/-- A network: it accepts every input and returns, at every grid point, as many numbers as it was asked for.  Nothing is assumed about the numbers. -/
def Network (tower : ChanTower d) : Prop :=
  ∀ (n : ℤ) (x : Chan d ℝ), 0 ≤ n → ∃ y, tower n x = .ok y ∧ y.shape = x.shape ∧ (y.chan : ℤ) = n

/-- The stencils are large enough (more than one point in total), and patches can be extracted on a grid of this shape. -/
def StencilsFit (shape : Fin d → ℕ) (cfg : FusedConfig d) (keys : List (InterpKey d)) : Prop :=
  ∀ key ∈ keys, (∀ a, 0 < cfg.stencil key a) ∧ 2 ≤ ∏ a, cfg.stencil key a ∧
    PatchesAvailable (cfg.stencil key) shape cfg.patchMethod cfg.tileLayout

/-- What is assumed of NumPy, of the grid and of the network. -/
structure LearnedSetup (solve : List (List ℝ) → List ℝ → Except Err (List ℝ)) (svd : List (List ℝ) → List (List ℝ)) (g : Grid d ℝ) (h : ℝ)
    (cfg : FusedConfig d) (keys : List (InterpKey d)) : Prop where
  exact : SolvesExactly solve
  regular : SolvesRegular solve
  svd : SvdNullRows svd
  dim : 0 < d
  cells : ∀ a, 0 < g.shape a
  pos : 0 < h
  steps : ∀ a, g.step a = h
  network : Network cfg.tower
  stencils : StencilsFit g.shape cfg keys

theorem shift_range (u : GridArray d ℝ) (j a : Fin d) : u.offset a ≤ controlVolumeOffsets u j a ∧ controlVolumeOffsets u j a < u.offset a + 1 := by
  unfold controlVolumeOffsets
  split_ifs <;> constructor <;> linarith

section
variable {solve : List (List ℝ) → List ℝ → Except Err (List ℝ)} {svd : List (List ℝ) → List (List ℝ)} {g : Grid d ℝ} {h : ℝ} {cfg : FusedConfig d}

theorem LearnedSetup.facts {keys : List (InterpKey d)} (S : LearnedSetup solve svd g h cfg keys) {ds : List (SpatialDeriv d)}
    (hds : List.Forall₂ (fun k l => interpLayer solve svd g cfg k = .ok l) keys ds) {l : SpatialDeriv d} (hl : l ∈ ds) :
    ∃ key ∈ keys, interpLayer solve svd g cfg key = .ok l ∧ l.stencilShape = cfg.stencil key ∧ l.roll = (getRollAndShift key.1 key.2.1).1 ∧
      l.patchMethod = cfg.patchMethod ∧ l.tileLayout = cfg.tileLayout ∧ l.constraint.nullspaceSize = (∏ a, cfg.stencil key a : ℕ) - 1 ∧
      (l.constraint.nullspace.length : ℤ) = l.constraint.nullspaceSize ∧ l.constraint.bias.length = ∏ a, cfg.stencil key a ∧
      ∀ r ∈ l.constraint.nullspace, r.length = l.constraint.bias.length := by
  obtain ⟨hlen, hget⟩ := forall2_getElem hds
  obtain ⟨k, hk, rfl⟩ := List.getElem_of_mem hl
  have hk' : k < keys.length := by omega
  obtain ⟨s1, s2, s3⟩ := S.stencils keys[k] (List.getElem_mem hk')
  exact ⟨keys[k], List.getElem_mem hk', hget k hk' hk, layer_facts S.exact S.regular S.svd S.dim S.pos S.steps s1 s2 (hget k hk' hk)⟩

theorem sizes_toNat {ds : List (SpatialDeriv d)} (h : ∀ l ∈ ds, (l.constraint.nullspace.length : ℤ) = l.constraint.nullspaceSize) :
    (ds.map fun l => l.constraint.nullspaceSize.toNat) = ds.map fun l => l.constraint.nullspace.length := by
  refine List.map_congr_left fun l hl => ?_
  have := h l hl
  omega

theorem sizes_cast {ds : List (SpatialDeriv d)} (h : ∀ l ∈ ds, (l.constraint.nullspace.length : ℤ) = l.constraint.nullspaceSize) :
    (ds.map fun l => l.constraint.nullspaceSize).sum = ((ds.map fun l => l.constraint.nullspace.length).sum : ℕ) := by
  induction ds with
  | nil => rfl
  | cons l ds ih =>
    rw [List.map_cons, List.sum_cons, List.map_cons, List.sum_cons, ih fun x hx => h x (List.mem_cons_of_mem _ hx), ← h l (List.mem_cons_self ..)]
    push_cast
    ring

theorem splitLogits_eq {ds : List (SpatialDeriv d)} (h : ∀ l ∈ ds, (l.constraint.nullspace.length : ℤ) = l.constraint.nullspaceSize) (x : Chan d ℝ) (k : ℕ) :
    splitLogits ds x k = logitsOf ds x k := by
  unfold splitLogits logitsOf
  rw [sizes_toNat h, ← List.map_take, ← List.map_take]

theorem stack_shape {v : List (GridVariable d ℝ)} {x : Chan d ℝ} (h : stackChan v = .ok x) : ∀ u ∈ v, u.array.shape = x.shape := by
  unfold stackChan at h
  cases v with
  | nil => cases h
  | cons u us =>
    dsimp only at h
    split_ifs at h with h1
    injection h with h
    subst h
    push Not at h1
    intro w hw
    rcases List.mem_cons.1 hw with rfl | hw
    · rfl
    · exact h1 w hw

theorem stack_ok {shape : Fin d → ℕ} {v : List (GridVariable d ℝ)} (hv : v ≠ []) (h : ∀ u ∈ v, u.array.shape = shape) :
    ∃ x, stackChan v = .ok x ∧ x.shape = shape := by
  unfold stackChan
  cases v with
  | nil => exact absurd rfl hv
  | cons u us =>
    dsimp only
    rw [if_neg]
    · exact ⟨_, rfl, h u (List.mem_cons_self ..)⟩
    · push Not
      intro w hw
      rw [h w (List.mem_cons_of_mem _ hw), h u (List.mem_cons_self ..)]

/-- **C63.** The constructor succeeds for every network, on every equidistant grid, for all stencils with more than one point. -/
theorem C63_construct {v : List (GridVariable d ℝ)} (S : LearnedSetup solve svd g h cfg (learnedKeys v cfg.tags)) (hv : v ≠ [])
    (hshape : ∀ u ∈ v, u.array.shape = g.shape) :
    ∃ s, mkFused solve svd g cfg v = .ok s ∧ s.logits.shape = g.shape ∧
      s.logits.chan = (s.keys.map fun key => (∏ a, cfg.stencil key a) - 1).sum := by
  obtain ⟨ds, hds⟩ : ∃ ds, (learnedKeys v cfg.tags).mapM (interpLayer solve svd g cfg) = .ok ds := by
    have : Nonempty (SpatialDeriv d) := ⟨⟨fun _ => 0, fun _ => 0, ⟨[], [], 0⟩, "", none⟩⟩
    choose! f hf using fun key hkey => layer_constructs S.exact S.regular svd S.dim (cfg.stencil key) (S.stencils key hkey).1 (S.stencils key hkey).2.1
      key.1 key.2.1 g.step h S.pos S.steps cfg.patchMethod cfg.tileLayout
    exact ⟨_, Metric.mapM_ok_map _ f _ fun key hkey => (hf key hkey).1⟩
  have hall := (mapM_eq_ok _ _ _).1 hds
  obtain ⟨x, hx, hxs⟩ := stack_ok hv hshape
  have hnl : ∀ l ∈ ds, (l.constraint.nullspace.length : ℤ) = l.constraint.nullspaceSize := fun l hl => by
    obtain ⟨key, hk, f⟩ := S.facts hall hl
    exact f.2.2.2.2.2.2.1
  obtain ⟨y, hy, hys, hyc⟩ := S.network ((ds.map fun l => l.constraint.nullspaceSize).sum) x (by rw [sizes_cast hnl]; omega)
  refine ⟨⟨learnedKeys v cfg.tags, ds, y, cfg.fuseConstraints, cfg.fusePatches⟩, ?_, hys.trans hxs, ?_⟩
  · unfold mkFused
    dsimp only
    rw [hds, Except.bind_ok, hx, Except.bind_ok, hy]
    rfl
  · have e : (ds.map fun l => l.constraint.nullspace.length) = (learnedKeys v cfg.tags).map fun key => (∏ a, cfg.stencil key a) - 1 := by
      obtain ⟨hlen, hget⟩ := forall2_getElem hall
      refine List.ext_getElem (by simp [hlen]) fun k h1 h2 => ?_
      rw [List.getElem_map, List.getElem_map]
      rw [List.length_map] at h1 h2
      have hst := S.stencils (learnedKeys v cfg.tags)[k] (List.getElem_mem h2)
      have f := layer_facts S.exact S.regular S.svd S.dim S.pos S.steps hst.1 hst.2.1 (hget k h2 h1)
      have h5 := f.2.2.2.2.1
      have h6 := f.2.2.2.2.2.1
      omega
    rw [sizes_cast hnl] at hyc
    dsimp only
    rw [← e]
    exact_mod_cast hyc

/-- What the state of a learned interpolation satisfies. -/
theorem fused_state {v : List (GridVariable d ℝ)} (S : LearnedSetup solve svd g h cfg (learnedKeys v cfg.tags)) {s : FusedInterp d}
    (hs : mkFused solve svd g cfg v = .ok s) :
    Fusable s.derivs ∧ s.logits.chan = (s.derivs.map fun l => l.constraint.nullspace.length).sum ∧
    (∀ u ∈ v, s.logits.shape = u.array.shape) ∧ ∀ l ∈ s.derivs, (l.constraint.nullspace.length : ℤ) = l.constraint.nullspaceSize := by
  obtain ⟨hk, hd, -, -, x, hx, ht⟩ := mkFused_ok hs
  rw [hk] at hd
  have hnl : ∀ l ∈ s.derivs, (l.constraint.nullspace.length : ℤ) = l.constraint.nullspaceSize := fun l hl => by
    obtain ⟨key, hk, f⟩ := S.facts hd hl
    exact f.2.2.2.2.2.2.1
  obtain ⟨y, hy, hys, hyc⟩ := S.network ((s.derivs.map fun l => l.constraint.nullspaceSize).sum) x (by rw [sizes_cast hnl]; omega)
  rw [ht] at hy
  injection hy with hy
  subst hy
  refine ⟨⟨fun l hl => ?_, fun l hl => ?_, hnl, fun l hl l' hl' => ?_, fun l hl a => ?_⟩, ?_, fun u hu => ?_, hnl⟩
  · obtain ⟨key, hk, f⟩ := S.facts hd hl
    exact f.2.2.2.2.2.2.2.2
  · obtain ⟨key, hk, f⟩ := S.facts hd hl
    rw [f.2.2.2.2.2.2.2.1, f.2.1, List.prod_ofFn]
  · obtain ⟨key, hk, f⟩ := S.facts hd hl
    obtain ⟨key', hk', f'⟩ := S.facts hd hl'
    rw [f.2.2.2.2.1, f'.2.2.2.2.1]
  · obtain ⟨key, hk, f⟩ := S.facts hd hl
    obtain ⟨u, hu, j, t, ht, e⟩ := mem_learnedKeys.1 hk
    rw [f.2.2.1, e]
    unfold getRollAndShift
    dsimp only
    obtain ⟨r1, r2⟩ := shift_range u.array j a
    have : ⌊controlVolumeOffsets u.array j a - u.array.offset a⌋ = 0 := by
      rw [Int.floor_eq_iff]
      push_cast
      constructor <;> linarith
    rw [this, neg_zero]
  · rw [sizes_cast hnl] at hyc
    exact_mod_cast hyc
  · rw [hys, stack_shape hx u hu]

/-- **C63.** `fuse_constraints` is only an optimisation: with it a learned interpolation returns exactly what it returns without it (patches not fused). -/
theorem C63_fused_equals_split {v : List (GridVariable d ℝ)} (S : LearnedSetup solve svd g h cfg (learnedKeys v cfg.tags))
    (s : FusedInterp d) (hs : mkFused solve svd g { cfg with fuseConstraints := false, fusePatches := false } v = .ok s) :
    ∃ s', mkFused solve svd g { cfg with fuseConstraints := true, fusePatches := false } v = .ok s' ∧
      ∀ (c : GridVariable d ℝ) (offset : Fin d → ℚ) (tag : Option String), s'.call c offset tag = s.call c offset tag := by
  have S' : LearnedSetup solve svd g h { cfg with fuseConstraints := false, fusePatches := false } (learnedKeys v cfg.tags) :=
    ⟨S.exact, S.regular, S.svd, S.dim, S.cells, S.pos, S.steps, S.network, S.stencils⟩
  obtain ⟨f1, f2, f3, f4⟩ := fused_state S' hs
  obtain ⟨k1, k2, k3, k4, -⟩ := mkFused_ok hs
  refine ⟨{ s with fuseConstraints := true }, ?_, fun c offset tag => ?_⟩
  · unfold mkFused at hs ⊢
    obtain ⟨ds, h1, hs⟩ := Except.bind_eq_ok.1 hs
    obtain ⟨x, h2, hs⟩ := Except.bind_eq_ok.1 hs
    obtain ⟨l, h3, hs⟩ := Except.bind_eq_ok.1 hs
    injection hs with hs
    subst hs
    have h1' : (learnedKeys v cfg.tags).mapM (interpLayer solve svd g { cfg with fuseConstraints := true, fusePatches := false }) = .ok ds := h1
    dsimp only
    rw [h1', Except.bind_ok, h2, Except.bind_ok]
    have h3' : cfg.tower ((ds.map fun s => s.constraint.nullspaceSize).sum) x = .ok l := h3
    rw [h3']
    rfl
  · have key : ∀ (k : Fin s.derivs.length) (x : Chan d ℝ), FusedInterp.apply { s with fuseConstraints := true } k x = s.apply k x := by
      intro k x
      unfold FusedInterp.apply
      dsimp only
      have e3 : s.fuseConstraints = false := k3
      have e4 : s.fusePatches = false := k4
      rw [if_pos rfl, e3, e4, if_neg (by simp), C52_fused_layers s.derivs f1 s.logits x f2 k, splitLogits_eq f4]
    unfold FusedInterp.call
    simp only [key]

/-- **C63.** Learned interpolation, whatever the network: from a component of the velocity to a face of its control volume it returns a variable with
the new offset and the old shape, grid and boundary condition; wherever the stencil sees only one value the result is that value. -/
theorem C63_interpolation {v : List (GridVariable d ℝ)} (S : LearnedSetup solve svd g h cfg (learnedKeys v cfg.tags)) (hf : cfg.fusePatches = false)
    (s : FusedInterp d) (hs : mkFused solve svd g cfg v = .ok s) (u : GridVariable d ℝ) (hu : u ∈ v) (j : Fin d) (tag : Option String)
    (ht : tag ∈ cfg.tags) (hshape : u.array.shape = g.shape) (c : GridVariable d ℝ) (hco : c.array.offset = u.array.offset) (hcs : c.array.shape = g.shape) :
    ∃ r, s.call c (controlVolumeOffsets u.array j) tag = .ok (.variable r) ∧ r.array.offset = controlVolumeOffsets u.array j ∧
      r.array.shape = c.array.shape ∧ r.array.grid = c.array.grid ∧ r.bc = c.bc ∧
      ∀ (i : Idx d) (k : ℝ), InR g.shape i →
        (∀ o : Idx d, InR (cfg.stencil (u.array.offset, controlVolumeOffsets u.array j, tag)) o → c.array.data (fun a =>
          (i a + o a - ((cfg.stencil (u.array.offset, controlVolumeOffsets u.array j, tag) a - 1) / 2 : ℕ)) % (g.shape a : ℤ)) = k) →
        r.array.data i = k := by
  obtain ⟨f1, f2, f3, f4⟩ := fused_state S hs
  obtain ⟨k1, k2, k3, k4, -⟩ := mkFused_ok hs
  have hne : c.array.offset ≠ controlVolumeOffsets u.array j := by
    intro e
    have := congrFun (e.symm.trans hco) j
    unfold controlVolumeOffsets at this
    rw [if_pos rfl] at this
    linarith
  obtain ⟨k, hk, hcall⟩ := (C63_lookup g cfg v s hs c (controlVolumeOffsets u.array j) tag hne).2 ⟨u, hu, j, ht, hco, rfl⟩
  have hkey : (c.array.offset, controlVolumeOffsets u.array j, tag) = (u.array.offset, controlVolumeOffsets u.array j, tag) := by rw [hco]
  rw [hkey] at hk
  obtain ⟨s1, s2, s3⟩ := S.stencils (u.array.offset, controlVolumeOffsets u.array j, tag) (mem_learnedKeys.2 ⟨u, hu, j, tag, ht, rfl⟩)
  have hroll := fun a => shift_range u.array j a
  have happ : s.apply k (expandLast c.array.toNArr) = (s.derivs.get k).call (expandLast c.array.toNArr) (logitsOf s.derivs s.logits k) := by
    unfold FusedInterp.apply
    split_ifs with hfc
    · rw [k4, hf]
      exact C52_fused_layers s.derivs f1 s.logits _ f2 k
    · rw [splitLogits_eq f4]
  have hlc := (logitsOf_list s.derivs s.logits k k.2 f2 0).1
  obtain ⟨out, ho, hos, hoc, hval⟩ := layer_call S.exact S.regular S.svd S.dim S.pos S.steps s1 s2 hroll hk c.array.toNArr
    (by intro a; rw [show c.array.toNArr.shape = g.shape from hcs]; exact S.cells a) (by rw [show c.array.toNArr.shape = g.shape from hcs]; exact s3)
    (logitsOf s.derivs s.logits k) (by
      show s.logits.shape = _
      rw [f3 u hu, hshape]
      exact hcs.symm) (by
      rw [hlc]
      exact f4 _ (List.getElem_mem k.2))
  refine ⟨⟨⟨⟨out.shape, fun i => out.data i 0⟩, controlVolumeOffsets u.array j, c.array.grid⟩, c.bc⟩, ?_, rfl, hos, rfl, rfl, fun i k' hi hloc => ?_⟩
  · rw [hcall, happ, ho, Except.bind_ok]
    unfold squeezeLast
    rw [if_pos hoc]
    rfl
  · refine hval i k' (by rw [show c.array.toNArr.shape = g.shape from hcs]; exact hi) fun o ho => ?_
    rw [show c.array.toNArr.shape = g.shape from hcs, ← hloc o ho]
    show c.array.data _ = c.array.data _
    congr 1
    funext a
    unfold stencilCell
    have : ⌊controlVolumeOffsets u.array j a - u.array.offset a⌋ = 0 := by
      rw [Int.floor_eq_iff]
      push_cast
      constructor <;> linarith [(hroll a).1, (hroll a).2]
    dsimp only
    rw [this, add_zero]

end

theorem concat_ok {shape : Fin d → ℕ} (x : Chan d ℝ) (hx : x.shape = shape) (l : List (Chan d ℝ)) (hl : ∀ y ∈ l, y.shape = shape) :
    ∃ z, Chan.concat x l = .ok z ∧ z.shape = shape := by
  induction l generalizing x with
  | nil => exact ⟨x, rfl, hx⟩
  | cons y l ih =>
    unfold Chan.concat
    rw [if_neg (by rw [hl y (List.mem_cons_self ..), hx]; simp)]
    exact ih _ hx fun w hw => hl w (List.mem_cons_of_mem _ hw)

/-- **C63.** `IndividualLearnedInterpolation` (one network per pair of offsets), whatever the networks: the variable itself if the offset does not change;
otherwise, for a target less than one cell after the data, a variable with the new offset which equals the data wherever the stencil sees one value. -/
theorem C63_individual {solve : List (List ℝ) → List ℝ → Except Err (List ℝ)} {svd : List (List ℝ) → List (List ℝ)} {g : Grid d ℝ} {h : ℝ}
    (hs : SolvesExactly solve) (hr : SolvesRegular solve) (hsvd : SvdNullRows svd) (hd : 0 < d) (hcells : ∀ a, 0 < g.shape a) (hh : 0 < h)
    (hsteps : ∀ a, g.step a = h) (n : ℕ) (hn : 2 ≤ n) (tower : (Fin d → ℚ) × (Fin d → ℚ) → ChanTower d) (ht : ∀ k, Network (tower k))
    (c : GridVariable d ℝ) (hc : c.array.shape = g.shape) (v : Fin d → GridVariable d ℝ) (hv : ∀ a, (v a).array.shape = g.shape) (dt : ℝ) :
    individualFn solve svd g n tower c c.array.offset v dt = .ok c ∧
    ∀ offset : Fin d → ℚ, c.array.offset ≠ offset → (∀ a, c.array.offset a ≤ offset a ∧ offset a < c.array.offset a + 1) →
      ∃ r, individualFn solve svd g n tower c offset v dt = .ok r ∧ r.array.offset = offset ∧ r.array.shape = g.shape ∧ r.array.grid = c.array.grid ∧
        r.bc = c.bc ∧ ∀ (i : Idx d) (k : ℝ), InR g.shape i → (∀ o : Idx d, InR (fun _ : Fin d => n) o → c.array.data (fun a =>
          (i a + o a - ((n - 1) / 2 : ℕ)) % (g.shape a : ℤ)) = k) → r.array.data i = k := by
  refine ⟨by unfold individualFn; rw [if_pos rfl], fun offset hne hroll => ?_⟩
  have hp2 : 2 ≤ ∏ _a : Fin d, n := by
    calc 2 ≤ n := hn
      _ ≤ ∏ _a : Fin d, n := Finset.single_le_prod' (f := fun _ : Fin d => n) (fun _ _ => by omega) (Finset.mem_univ (⟨0, hd⟩ : Fin d))
  let cfg : FusedConfig d := { stencil := isotropicStencil n, tower := tower (c.array.offset, offset) }
  let key : InterpKey d := (c.array.offset, offset, none)
  obtain ⟨l, hl, hsz⟩ := layer_constructs hs hr svd hd (fun _ => n) (fun _ => by omega) hp2 c.array.offset offset g.step h hh hsteps "roll" none
  have hl' : interpLayer solve svd g cfg key = .ok l := hl
  obtain ⟨rolled, e1, e2⟩ := concat_ok (shape := g.shape) (jnpRollFlat (expandLast c.array.toNArr) l.roll) hc
    ((List.ofFn fun a => expandLast (v a).array.toNArr).map fun a => jnpRollFlat a l.roll) (by
      intro y hy
      rw [List.mem_map] at hy
      obtain ⟨x, hx, rfl⟩ := hy
      obtain ⟨a, rfl⟩ := List.mem_ofFn.1 hx
      exact hv a)
  obtain ⟨logits, t1, t2, t3⟩ := ht (c.array.offset, offset) l.constraint.nullspaceSize rolled (by rw [hsz]; omega)
  obtain ⟨out, ho, hos, hoc, hval⟩ := layer_call hs hr hsvd hd hh hsteps (cfg := cfg) (key := key) (fun _ => by show 0 < n; omega) hp2 hroll hl'
    c.array.toNArr (by intro a; rw [show c.array.toNArr.shape = g.shape from hc]; exact hcells a) (Or.inl rfl) logits (by
      rw [t2, e2]; exact hc.symm) t3
  obtain ⟨f1, -, f3, f4, -⟩ := mkSpatialDeriv_ok hl
  obtain ⟨z, hz, -⟩ := patches_available l (expandLast c.array.toNArr)
    (by intro a; rw [show (expandLast c.array.toNArr).shape = g.shape from hc]; exact hcells a) rfl (by intro a; rw [f1]; show 0 < n; omega) (Or.inl f3)
  refine ⟨⟨⟨⟨out.shape, fun i => out.data i 0⟩, offset, c.array.grid⟩, c.bc⟩, ?_, rfl, hos.trans hc, rfl, rfl, fun i k' hi hloc => ?_⟩
  · unfold individualFn
    rw [if_neg hne, hl, Except.bind_ok, C52_tower l _ _ _ rolled logits z e1 t1 hz t3, ho, Except.bind_ok]
    unfold squeezeLast
    rw [if_pos hoc]
    rfl
  · refine hval i k' (by rw [show c.array.toNArr.shape = g.shape from hc]; exact hi) fun o ho => ?_
    rw [show c.array.toNArr.shape = g.shape from hc, ← hloc o ho]
    show c.array.data _ = c.array.data _
    congr 1
    funext a
    unfold stencilCell
    have : ⌊offset a - c.array.offset a⌋ = 0 := by
      rw [Int.floor_eq_iff]
      push_cast
      constructor <;> linarith [(hroll a).1, (hroll a).2]
    show (i a + ⌊offset a - c.array.offset a⌋ + o a - ((n - 1) / 2 : ℕ)) % _ = _
    rw [this, add_zero]

/-! ## Advection -/

section
variable [HasNan ℝ] {solve : List (List ℝ) → List ℝ → Except Err (List ℝ)} {svd : List (List ℝ) → List (List ℝ)} {g : Grid d ℝ} {h : ℝ} {cfg : FusedConfig d}

omit [HasNan ℝ] in
theorem face_shift {v : Fin d → GridVariable d ℝ} (hv : PeriodicField g v) (a b : Fin d) :
    controlVolumeOffsets (v b).array a = controlVolumeOffsets (v a).array b := by
  funext i
  unfold controlVolumeOffsets
  rw [(hv.1 a).2.2, (hv.1 b).2.2]
  by_cases h1 : i = a <;> by_cases h2 : i = b <;> simp [h1, h2]
  · rw [← h1, ← h2]
    simp
  · subst h1
    norm_num [h2]
  · subst h2
    norm_num [h1]

omit [HasNan ℝ] in
/-- `fn`: the interpolation as seen by `advect_general`. -/
theorem fused_fn {w v : Fin d → GridVariable d ℝ} (S : LearnedSetup solve svd g h cfg (learnedKeys (List.ofFn w) cfg.tags)) (hf : cfg.fusePatches = false)
    (s : FusedInterp d) (hs : mkFused solve svd g cfg (List.ofFn w) = .ok s) (hw : PeriodicField g w) (hv : PeriodicField g v)
    (tag : String) (ht : some tag ∈ cfg.tags) (a j : Fin d) (x : Fin d → GridVariable d ℝ) (dt : ℝ) :
    ∃ r, s.fn (some tag) (v a) (controlVolumeOffsets (v a).array j) x dt = .ok r ∧ r.Periodic ∧ r.array.offset = controlVolumeOffsets (v a).array j ∧
      r.array.shape = g.shape ∧ r.array.grid = g ∧ r.bc = periodicBC d ∧
      ∀ k : ℝ, (∀ i : Idx d, InR g.shape i → (v a).array.data i = k) → ∀ i : Idx d, InR g.shape i → r.array.data i = k := by
  have ho : (v a).array.offset = (w a).array.offset := by funext b; rw [(hv.1 a).2.2, (hw.1 a).2.2]
  have hcv : controlVolumeOffsets (v a).array j = controlVolumeOffsets (w a).array j := by unfold controlVolumeOffsets; rw [ho]
  obtain ⟨r, h1, h2, h3, h4, h5, h6⟩ := C63_interpolation S hf s hs (w a) (List.mem_ofFn.2 ⟨a, rfl⟩) j (some tag) ht (hw.1 a).2.1 (v a) ho (hv.1 a).2.1
  refine ⟨r, ?_, ⟨?_, ?_⟩, by rw [hcv]; exact h2, h3.trans (hv.1 a).2.1, h4.trans (hv.1 a).1, h5.trans (hv.2 a), fun k hk i hi => h6 i k hi fun o ho => ?_⟩
  · unfold FusedInterp.fn
    rw [hcv, h1]
    rfl
  · intro b
    rw [h5, hv.2 a]
    rfl
  · intro b
    rw [h3, h4, (hv.1 a).1, (hv.1 a).2.1]
    exact ⟨rfl, S.cells b⟩
  · refine hk _ fun b => ?_
    have := S.cells b
    exact ⟨Int.emod_nonneg _ (by omega), Int.emod_lt_of_pos _ (by omega)⟩

/-- **C63.** Self-advection with learned interpolation, for every network: built from a periodic velocity field `w` and applied to any such field `v`
it succeeds; the tendency of every component is laid out like the component and sums to exactly zero over the grid, and it vanishes for uniform flow. -/
theorem C63_learned_advection (w : Fin d → GridVariable d ℝ) (S : LearnedSetup solve svd g h cfg (learnedKeys (List.ofFn w) cfg.tags))
    (hf : cfg.fusePatches = false) (hu : some "u" ∈ cfg.tags) (hc : some "c" ∈ cfg.tags) (hw : PeriodicField g w) (dt : ℝ) :
    ∃ C, learnedSelfAdvection solve svd g cfg dt w = .ok C ∧ ∀ v, PeriodicField g v → ∃ t, C v = .ok t ∧
      ∀ a, (t a).offset = (v a).array.offset ∧ (t a).grid = g ∧ (t a).shape = g.shape ∧ ∑ i ∈ box g.shape, (t a).data i = 0 ∧
        ((∀ b, ∃ k, ∀ i, InR g.shape i → (v b).array.data i = k) → ∀ i, InR g.shape i → (t a).data i = 0) := by
  have hne : List.ofFn w ≠ [] := by
    rw [ne_eq, List.ofFn_eq_nil_iff]
    have := S.dim
    omega
  obtain ⟨s, hs, -⟩ := C63_construct S hne fun u hu => by
    obtain ⟨a, rfl⟩ := List.mem_ofFn.1 hu
    exact (hw.1 a).2.1
  refine ⟨selfAdvection (modularSelfAdvection s.fn) dt, ?_, fun v hv => ?_⟩
  · unfold learnedSelfAdvection
    rw [hs]
    rfl
  · have key : ∀ a, ∃ t : GridArray d ℝ, modularSelfAdvection s.fn (v a) v dt = .ok t ∧ t.offset = (v a).array.offset ∧ t.grid = g ∧ t.shape = g.shape ∧
        ∑ i ∈ box g.shape, t.data i = 0 ∧ ((∀ b, ∃ k, ∀ i, InR g.shape i → (v b).array.data i = k) → ∀ i, InR g.shape i → t.data i = 0) := by
      intro a
      choose av h1 h2 h3 h4 h5 h6 h7 using fun b => fused_fn S hf s hs hw hv "u" hu b a v dt
      choose ac e1 e2 e3 e4 e5 e6 e7 using fun b => fused_fn S hf s hs hw hv "c" hc a b av dt
      refine ⟨⟨⟨g.shape, fun i => -∑ b, ((ac b).array.data i * (av b).array.data i -
        (ac b).array.data (rollIdx g.shape b (-1) i) * (av b).array.data (rollIdx g.shape b (-1) i)) / g.step b⟩, (v a).array.offset, g⟩,
        ?_, rfl, rfl, rfl, ?_, fun hk i hi => ?_⟩
      · unfold modularSelfAdvection advectGeneral
        rw [if_pos (hasAllPeriodic_of (hv.periodic S.cells a).1), seqFin_ok _ av (fun b => by rw [face_shift hv]; exact h1 b), Except.bind_ok,
          seqFin_ok _ ac e1, Except.bind_ok, advectAligned_ofFn]
        refine (advectAlignedAxes_periodic e2 h2).2 ⟨by have := S.dim; omega, fun b => by rw [h6 b]; rfl, fun b => ⟨e4 b, h4 b, e5 b, h5 b,
          (e3 b).trans ((face_shift hv b a).trans (h3 b).symm), ?_⟩, rfl⟩
        rw [h3 b, ← face_shift hv]
        funext i
        unfold controlVolumeOffsets
        by_cases hib : i = b
        · subst hib
          simp
        · rw [Function.update_of_ne hib, if_neg hib]
      · dsimp only
        rw [Finset.sum_neg_distrib, Finset.sum_comm, neg_eq_zero]
        refine Finset.sum_eq_zero fun b _ => ?_
        rw [← Finset.sum_div, Finset.sum_sub_distrib, sum_roll g.shape b (-1) (fun i => (ac b).array.data i * (av b).array.data i), sub_self, zero_div]
      · dsimp only
        rw [neg_eq_zero]
        refine Finset.sum_eq_zero fun b _ => ?_
        obtain ⟨ka, hka⟩ := hk a
        obtain ⟨kb, hkb⟩ := hk b
        have hj := rollIdx_inR hi b (-1)
        rw [h7 b kb hkb i hi, h7 b kb hkb _ hj, e7 b ka hka i hi, e7 b ka hka _ hj, sub_self, zero_div]
    choose t ht using key
    exact ⟨t, seqFin_ok _ t fun a => (ht a).1, fun a => (ht a).2⟩

omit [HasNan ℝ] in
/-- **C63.** With the centred interpolation of a scalar it is different: a scalar at the cell centres has offsets the constructor did not prepare, and
advecting it with the learned interpolation of the velocity is a `KeyError`. -/
theorem C63_centred_scalar_defect (w : Fin d → GridVariable d ℝ) (hw : PeriodicField g w) (s : FusedInterp d)
    (hs : mkFused solve svd g cfg (List.ofFn w) = .ok s) (c : GridVariable d ℝ) (hc : ∀ a, c.array.offset a = 1 / 2) (j : Fin d) (tag : Option String) :
    s.call c (controlVolumeOffsets c.array j) tag = .error .key := by
  refine (C63_lookup g cfg _ s hs c _ tag ?_).1 fun u hu j' t ht e => ?_
  · intro e
    have := congrFun e j
    unfold controlVolumeOffsets at this
    rw [if_pos rfl] at this
    linarith
  · obtain ⟨a, rfl⟩ := List.mem_ofFn.1 hu
    have e1 : c.array.offset = (w a).array.offset := congrArg (fun q => q.1) e
    have := congrFun e1 a
    rw [hc, (hw.1 a).2.2, if_pos rfl] at this
    norm_num at this

/-! ## The modular Navier-Stokes model -/

/-- **C63.** The modular model with learned advection and implicit diffusion, for every network, every list of acceleration modules and every forcing:
whenever a step returns, the new field is divergence free, and its total momentum has changed by exactly `dt / density` times the total of the forcings. -/
theorem C63_modular_step (density viscosity dt : ℝ) (hc : 0 ≤ viscosity * dt) (psolve : PressureSolver d ℝ) (hex : ExactSolver g psolve)
    (dsolve : (Fin d → GridVariable d ℝ) → ℝ → ℝ → Except Err (Fin d → GridVariable d ℝ)) (hds : ExactDiffusion g dsolve)
    (v w : Fin d → GridVariable d ℝ) (S : LearnedSetup solve svd g h cfg (learnedKeys (List.ofFn v) cfg.tags))
    (hf : cfg.fusePatches = false) (hu : some "u" ∈ cfg.tags) (hcc : some "c" ∈ cfg.tags) (hv : PeriodicField g v) (active : ForcingFn d)
    (modules : List ((Fin d → GridVariable d ℝ) → Except Err (ForcingFn d)))
    (hw : modularNavierStokes density viscosity dt psolve dsolve (learnedSelfAdvection solve svd g cfg dt) active modules v = .ok w) :
    PeriodicField g w ∧ DivergenceFree g w ∧ ∃ (accelerations : List (ForcingFn d)) (F : Fin d → GridArray d ℝ),
      List.Forall₂ (fun m f => m v = .ok f) modules accelerations ∧ sumForcings (active :: accelerations) v = .ok F ∧
      ∀ a, total g w a = total g v a + dt / density * ∑ i ∈ box g.shape, (F a).data i := by
  obtain ⟨C, hC, hCv⟩ := C63_learned_advection v S hf hu hcc hv dt
  have hd : d ≠ 0 := by have := S.dim; omega
  unfold modularNavierStokes at hw
  rw [hC, Except.bind_ok] at hw
  obtain ⟨acc, hacc, hw⟩ := Except.bind_eq_ok.1 hw
  obtain ⟨p1, p2, -⟩ := C56_implicit_divergence_free hd g S.cells density viscosity dt hc psolve hex dsolve hds _ _ v w hv hw
  obtain ⟨c, F, u, p, hcv, hF, hu', hp, hw'⟩ := (C56_implicit_step density viscosity dt psolve dsolve C _ v w).1.1 hw
  refine ⟨p1, p2, acc, F, (mapM_eq_ok _ _ _).1 hacc, hF, fun a => ?_⟩
  obtain ⟨t, ht, htt⟩ := hCv v hv
  rw [hcv] at ht
  injection ht with ht
  subst ht
  have hul : SameLayout v u := fun a => by
    have h := (hu' a).1 (v a).array (by simp)
    exact ⟨h.1.symm, h.2.1.symm, (hu' a).2.1, h.2.2.symm⟩
  have hup := hul.periodicField hv
  obtain ⟨p', hp', -, hpp, -, hpt, -⟩ := exact_projection hd S.cells hex hup
  rw [hp] at hp'
  injection hp' with hp'
  subst hp'
  obtain ⟨r, hr, hb⟩ := hds p viscosity dt hpp hc
  rw [hw'] at hr
  injection hr with hr
  subst hr
  obtain ⟨-, -, h3, -, -⟩ := implicit_diffusion_invariants hd S.cells hc hpp hb
  rw [h3 a, hpt a]
  unfold total
  rw [Finset.sum_congr rfl fun i _ => (hu' a).2.2 i, Finset.sum_add_distrib, ← Finset.sum_mul, Finset.sum_add_distrib, (htt a).2.2.2.1, zero_add,
    ← Finset.sum_div]
  ring

/-- **C63.** Without forcing the modular model succeeds on every periodic velocity field, conserves momentum, and does not change uniform flow. -/
theorem C63_modular_unforced (density viscosity dt : ℝ) (hc : 0 ≤ viscosity * dt) (psolve : PressureSolver d ℝ) (hex : ExactSolver g psolve)
    (dsolve : (Fin d → GridVariable d ℝ) → ℝ → ℝ → Except Err (Fin d → GridVariable d ℝ)) (hds : ExactDiffusion g dsolve)
    (v : Fin d → GridVariable d ℝ) (S : LearnedSetup solve svd g h cfg (learnedKeys (List.ofFn v) cfg.tags))
    (hf : cfg.fusePatches = false) (hu : some "u" ∈ cfg.tags) (hcc : some "c" ∈ cfg.tags) (hv : PeriodicField g v) :
    ∃ w, modularNavierStokes density viscosity dt psolve dsolve (learnedSelfAdvection solve svd g cfg dt) (linearForcing 0) [] v = .ok w ∧
      PeriodicField g w ∧ DivergenceFree g w ∧ (∀ a, total g w a = total g v a) ∧
      ((∀ b, ∃ k, ∀ i, InR g.shape i → (v b).array.data i = k) → ∀ a i, InR g.shape i → (w a).array.data i = (v a).array.data i) := by
  obtain ⟨C, hC, hCv⟩ := C63_learned_advection v S hf hu hcc hv dt
  have hd : d ≠ 0 := by have := S.dim; omega
  obtain ⟨c, hcv, ht⟩ := hCv v hv
  obtain ⟨f, hf1, hf2⟩ := C49_linear 0 v
  have hsum : sumForcings [linearForcing 0] v = .ok f := by
    refine sumForcings_eq_ok.2 ⟨[f], .cons hf1 .nil, fun a => sumField_eq_ok.2 ⟨by simp, fun w hw => ?_, by simp⟩⟩
    rw [List.map_singleton, List.mem_singleton] at hw
    rw [hw]
    exact ⟨rfl, rfl, rfl⟩
  let u : Fin d → GridVariable d ℝ := fun a =>
    ⟨⟨⟨(v a).array.shape, fun i => (v a).array.data i + ((c a).data i + (f a).data i / density) * dt⟩, (v a).array.offset, (v a).array.grid⟩, (v a).bc⟩
  have hue : ∀ a i, (u a).array.data i = (v a).array.data i + (c a).data i * dt := fun a i => by
    show (v a).array.data i + ((c a).data i + (f a).data i / density) * dt = _
    rw [(hf2 a).2.2.2 i, zero_mul, zero_div, add_zero]
  have hul : SameLayout v u := fun a => ⟨rfl, rfl, rfl, rfl⟩
  have hup := hul.periodicField hv
  obtain ⟨p, hp, hpl, hpp, hpd, hpt, hpf⟩ := exact_projection hd S.cells hex hup
  obtain ⟨w, hw, hb⟩ := hds p viscosity dt hpp hc
  obtain ⟨h1, h2, h3, -, h5⟩ := implicit_diffusion_invariants hd S.cells hc hpp hb
  refine ⟨w, ?_, h1.periodicField hpp, h2 hpd, fun a => ?_, fun hk a i hi => ?_⟩
  · unfold modularNavierStokes
    rw [hC, Except.bind_ok]
    refine ((C56_implicit_step density viscosity dt psolve dsolve C _ v w).1).2 ⟨c, f, u, p, hcv, hsum, fun a => ⟨fun x hx => ?_, rfl, fun i => rfl⟩, hp, hw⟩
    simp only [List.mem_cons, List.not_mem_nil, or_false] at hx
    rcases hx with rfl | rfl | rfl
    · exact ⟨rfl, rfl, rfl⟩
    · exact ⟨(ht a).1, (ht a).2.1.trans (hv.1 a).1.symm, (ht a).2.2.1.trans (hv.1 a).2.1.symm⟩
    · exact ⟨(hf2 a).1, (hf2 a).2.1, (hf2 a).2.2.1⟩
  · rw [h3 a, hpt a]
    unfold total
    rw [Finset.sum_congr rfl fun i _ => hue a i, Finset.sum_add_distrib, ← Finset.sum_mul, (ht a).2.2.2.1, zero_mul, add_zero]
  · have hue' : ∀ b i, InR g.shape i → (u b).array.data i = (v b).array.data i := fun b i hi => by
      rw [hue, (ht b).2.2.2.2 hk i hi, zero_mul, add_zero]
    have hud : DivergenceFree g u := by
      refine ⟨_, hup.divergence hd S.cells, fun j hj => ?_⟩
      dsimp only
      refine Finset.sum_eq_zero fun b _ => ?_
      obtain ⟨k, hk⟩ := hk b
      rw [hue' b j hj, hue' b _ (rollIdx_inR hj b (-1)), hk j hj, hk _ (rollIdx_inR hj b (-1)), sub_self, zero_div]
    have hpe : ∀ b i, InR g.shape i → (p b).array.data i = (v b).array.data i := fun b i hi => (hpf hud b i hi).trans (hue' b i hi)
    rw [h5 (fun b => by
      obtain ⟨k, hk⟩ := hk b
      exact ⟨k, fun i hi => (hpe b i hi).trans (hk i hi)⟩) a i hi, hpe a i hi]

/-- **C63.** With the explicit solver every Runge-Kutta step of the modular model returns a divergence-free field: whatever the advection, the
accelerations and the networks in them. -/
theorem C63_modular_explicit (hd : d ≠ 0) (hs : ∀ a, 0 < g.shape a) (density viscosity dt : ℝ) (psolve : PressureSolver d ℝ) (hex : ExactSolver g psolve)
    (D : DiffuseFn d) (convection : (Fin d → GridVariable d ℝ) → Except Err (ConvectFn d)) (active : ForcingFn d)
    (modules : List ((Fin d → GridVariable d ℝ) → Except Err (ForcingFn d))) (stepper : Stepper d) (hst : RungeKutta stepper)
    (v w : Fin d → GridVariable d ℝ) (hv : PeriodicField g v)
    (hw : modularNavierStokesExplicit density viscosity dt psolve D convection active modules stepper v = .ok w) :
    PeriodicField g w ∧ DivergenceFree g w := by
  unfold modularNavierStokesExplicit at hw
  obtain ⟨C, -, hw⟩ := Except.bind_eq_ok.1 hw
  obtain ⟨acc, -, hw⟩ := Except.bind_eq_ok.1 hw
  exact C56_divergence_free hd g hs density (some viscosity) dt psolve hex _ D _ stepper hst v w hv hw

omit [HasNan ℝ] in
/-- **C63.** Forcing modules with a linear part: the force is that of the constant forcing plus `coefficient * v`, also when the coefficient is 0. -/
theorem C63_with_linear (force : ForcingFn d) (coefficient : ℝ) (v : Fin d → GridVariable d ℝ) (F : Fin d → GridArray d ℝ) (hF : force v = .ok F)
    (hlay : ∀ a, (F a).offset = (v a).array.offset ∧ (F a).grid = (v a).array.grid ∧ (F a).shape = (v a).array.shape) :
    ∃ r, withLinear force coefficient v = .ok r ∧ ∀ a, (r a).offset = (v a).array.offset ∧ (r a).grid = (v a).array.grid ∧
      (r a).shape = (v a).array.shape ∧ ∀ i, (r a).data i = (F a).data i + coefficient * (v a).array.data i := by
  unfold withLinear
  split_ifs with hne
  · obtain ⟨f, hf1, hf2⟩ := C49_linear coefficient v
    refine ⟨fun a => ⟨⟨(v a).array.shape, fun i => (F a).data i + (f a).data i⟩, (v a).array.offset, (v a).array.grid⟩,
      sumForcings_eq_ok.2 ⟨[F, f], .cons hF (.cons hf1 .nil), fun a => sumField_eq_ok.2 ⟨by simp, fun w hw => ?_, ?_⟩⟩, fun a => ⟨rfl, rfl, rfl, fun i => ?_⟩⟩
    · simp only [List.map_cons, List.map_nil, List.mem_cons, List.not_mem_nil, or_false] at hw
      rcases hw with rfl | rfl
      · exact hlay a
      · exact ⟨(hf2 a).1, (hf2 a).2.1, (hf2 a).2.2.1⟩
    · funext i
      simp
    · dsimp only
      rw [(hf2 a).2.2.2 i]
  · push Not at hne
    exact ⟨F, hF, fun a => ⟨(hlay a).1, (hlay a).2.1, (hlay a).2.2, fun i => by rw [hne, zero_mul, add_zero]⟩⟩

end

/-! ## The hypotheses can be met -/

/-- Square stencils with at least two points per axis, and stencils with at least two points along the axis of interpolation, are large enough. -/
theorem C63_stencils (shape : Fin d → ℕ) (hd : 0 < d) (n : ℕ) (hn : 2 ≤ n) (v : List (GridVariable d ℝ)) (cfg : FusedConfig d)
    (hs : cfg.stencil = isotropicStencil n ∨ cfg.stencil = anisotropicStencil n) (hp : cfg.patchMethod = "roll") :
    StencilsFit shape cfg (learnedKeys v cfg.tags) := by
  intro key hk
  obtain ⟨u, hu, j, t, ht, e⟩ := mem_learnedKeys.1 hk
  have h1 : ∀ a, 0 < cfg.stencil key a := by
    intro a
    rcases hs with hs | hs <;> rw [hs]
    · unfold isotropicStencil; omega
    · unfold anisotropicStencil; split_ifs <;> omega
  have h2 : ∃ a, cfg.stencil key a = n := by
    rcases hs with hs | hs <;> rw [hs]
    · exact ⟨⟨0, hd⟩, rfl⟩
    · refine ⟨j, ?_⟩
      unfold anisotropicStencil
      rw [e, if_neg]
      unfold controlVolumeOffsets
      dsimp only
      rw [if_pos rfl]
      intro h
      linarith
  obtain ⟨a, ha⟩ := h2
  refine ⟨h1, ?_, Or.inl hp⟩
  calc 2 ≤ cfg.stencil key a := by omega
    _ ≤ ∏ a, cfg.stencil key a := Finset.single_le_prod' (fun b _ => h1 b) (Finset.mem_univ a)

namespace Fixtures

theorem solveAny_regular : SolvesRegular solveAny := by
  intro rows hsq hker
  let L : (Fin rows.length → ℝ) →ₗ[ℝ] (Fin rows.length → ℝ) :=
    { toFun := fun x i => ∑ j : Fin rows.length, rows[i].1.getD (j : ℕ) 0 * x j
      map_add' := fun x y => by
        funext i
        simp [mul_add, Finset.sum_add_distrib]
      map_smul' := fun c x => by
        funext i
        simp only [Pi.smul_apply, smul_eq_mul, RingHom.id_apply, Finset.mul_sum]
        exact Finset.sum_congr rfl fun j _ => by ring }
  have hw : ∀ (x : Fin rows.length → ℝ) (i : Fin rows.length), weighted rows[i].1 (List.ofFn x) = L x i := by
    intro x i
    have hl : rows[i].1.length = rows.length := hsq _ (List.getElem_mem i.2)
    rw [weighted_eq_dotL, dotL_eq_sum _ _ (by rw [hl, List.length_ofFn]), hl, ← Fin.sum_univ_eq_sum_range
      (fun j => (rows[i].1).getD j 0 * (List.ofFn x).getD j 0)]
    refine Finset.sum_congr rfl fun j _ => ?_
    congr 1
    rw [List.getD_eq_getElem _ _ (by simp), List.getElem_ofFn]
  have hinj : Function.Injective L := by
    rw [← LinearMap.ker_eq_bot, LinearMap.ker_eq_bot']
    intro x hx
    have := hker (List.ofFn x) (by simp) fun q hq => by
      obtain ⟨i, hi, rfl⟩ := List.getElem_of_mem hq
      exact (hw x ⟨i, hi⟩).trans (congrFun hx _)
    funext j
    exact this _ (List.mem_ofFn.2 ⟨j, rfl⟩)
  obtain ⟨x, hx⟩ := LinearMap.injective_iff_surjective.1 hinj fun i => rows[i].2
  refine solveAny_ok (List.ofFn x) fun q hq => ?_
  obtain ⟨i, hi, rfl⟩ := List.getElem_of_mem hq
  exact ⟨by rw [hsq _ hq, List.length_ofFn], (hw x ⟨i, hi⟩).trans (congrFun hx _)⟩

/-- A grid with unit steps. -/
noncomputable def gUnit : Grid 2 ℝ := ⟨![3, 4], ![(0, 3), (0, 4)]⟩

theorem gUnit_pos : ∀ a, 0 < gUnit.shape a := fun a => by fin_cases a <;> simp [gUnit]

theorem gUnit_step : ∀ a, gUnit.step a = 1 := fun a => by fin_cases a <;> norm_num [gUnit, Grid.step]

theorem gUnit_resolved : Resolved gUnit (1 / 1000000) := by
  refine ⟨fun a => ?_, fun a => ?_, by norm_num, fun a => ?_⟩ <;> fin_cases a <;> simp [gUnit] <;> norm_num

/-- A velocity field that is not uniform. -/
noncomputable def gust : Fin 2 → GridVariable 2 ℝ := fun a =>
  ⟨⟨⟨gUnit.shape, fun i => if i 0 = 0 ∧ i 1 = 0 then 1 else 0⟩, fun b => if b = a then 1 else 1 / 2, gUnit⟩, periodicBC 2⟩

theorem gust_field : PeriodicField gUnit gust := ⟨fun _ => ⟨rfl, rfl, fun _ => rfl⟩, fun _ => rfl⟩

/-- A "network" whose output depends on the state. -/
noncomputable def feedback : ChanTower 2 := fun n x => if 0 ≤ n then .ok ⟨x.shape, n.toNat, fun i c => x.data i 0 + c⟩ else .error .value

theorem feedback_network : Network feedback := fun n x hn => ⟨⟨x.shape, n.toNat, fun i c => x.data i 0 + c⟩, if_pos hn, rfl, by
  dsimp only
  omega⟩

/-- The configuration of `modular_self_advection` with `FusedLearnedInterpolation(stencil_size=4)`. -/
noncomputable def cfgFused : FusedConfig 2 := { tags := [some "u", some "c"], tower := feedback, fuseConstraints := true }

theorem cfgFused_setup : LearnedSetup solveAny svdSample gUnit 1 cfgFused (learnedKeys (List.ofFn gust) cfgFused.tags) :=
  ⟨solveAny_solves, solveAny_regular, svdSample_null, by norm_num, gUnit_pos, one_pos, gUnit_step, feedback_network,
    C63_stencils _ (by norm_num) 4 (by norm_num) _ _ (Or.inl rfl) rfl⟩

/-- The same with `anisotropic_learned_interpolation`. -/
noncomputable def cfgAniso : FusedConfig 2 := { cfgFused with stencil := anisotropicStencil 4, fuseConstraints := false }

theorem cfgAniso_setup : LearnedSetup solveAny svdSample gUnit 1 cfgAniso (learnedKeys (List.ofFn gust) cfgAniso.tags) :=
  ⟨solveAny_solves, solveAny_regular, svdSample_null, by norm_num, gUnit_pos, one_pos, gUnit_step, feedback_network,
    C63_stencils _ (by norm_num) 4 (by norm_num) _ _ (Or.inr rfl) rfl⟩

example [HasNan ℝ] : ∃ C t, learnedSelfAdvection solveAny svdSample gUnit cfgFused (1 / 10) gust = .ok C ∧ C gust = .ok t ∧
    ∑ i ∈ box gUnit.shape, (t 0).data i = 0 := by
  obtain ⟨C, h1, h2⟩ := C63_learned_advection gust cfgFused_setup rfl (by simp [cfgFused]) (by simp [cfgFused]) gust_field (1 / 10)
  obtain ⟨t, h3, h4⟩ := h2 gust gust_field
  exact ⟨C, t, h1, h3, (h4 0).2.2.2.1⟩

example : ∃ s, mkFused solveAny svdSample gUnit cfgAniso (List.ofFn gust) = .ok s ∧ ∃ r, s.call (gust 0) (controlVolumeOffsets (gust 0).array 1) (some "c") =
    .ok (.variable r) := by
  obtain ⟨s, hs, -⟩ := C63_construct cfgAniso_setup (by simp [List.ofFn_succ]) fun u hu => by
    obtain ⟨a, rfl⟩ := List.mem_ofFn.1 hu
    rfl
  obtain ⟨r, hr, -⟩ := C63_interpolation cfgAniso_setup rfl s hs (gust 0) (List.mem_ofFn.2 ⟨0, rfl⟩) 1 (some "c") (by simp [cfgAniso, cfgFused]) rfl
    (gust 0) rfl rfl
  exact ⟨s, hs, r, hr⟩

example : ∃ r, individualFn solveAny svdSample gUnit 2 (fun _ => feedback) (gust 0) (controlVolumeOffsets (gust 0).array 1) gust 0 = .ok r := by
  obtain ⟨-, h⟩ := C63_individual solveAny_solves solveAny_regular svdSample_null (by norm_num) gUnit_pos one_pos gUnit_step 2 le_rfl (fun _ => feedback)
    (fun _ => feedback_network) (gust 0) rfl gust (fun _ => rfl) 0
  obtain ⟨r, hr, -⟩ := h (controlVolumeOffsets (gust 0).array 1) (fun e => by
    have := congrFun e 1
    norm_num [controlVolumeOffsets] at this) (shift_range (gust 0).array 1)
  exact ⟨r, hr⟩

example [HasNan ℝ] : ∃ w, modularNavierStokes 1 (1 / 100) (1 / 10) (defaultSolver false exists_eigh.choose (1 / 1000000))
    (fun u nu dt => diffusionFastDiag false exists_eigh.choose u nu dt none)
    (learnedSelfAdvection solveAny svdSample gUnit cfgFused (1 / 10)) (linearForcing 0) [] gust = .ok w ∧ DivergenceFree gUnit w := by
  obtain ⟨w, h1, -, h2, -⟩ := C63_modular_unforced 1 (1 / 100) (1 / 10) (by norm_num) _
    (C56_default_solver two_ne_zero gUnit _ gUnit_resolved _ exists_eigh.choose_spec false) _
    (C56_default_diffusion two_ne_zero gUnit (fun b => by fin_cases b <;> simp [gUnit]) (fun b => by fin_cases b <;> simp [gUnit]) false _
      exists_eigh.choose_spec) gust cfgFused_setup rfl (by simp [cfgFused]) (by simp [cfgFused]) gust_field
  exact ⟨w, h1, h2⟩

end Fixtures

end JaxCfd.ML
