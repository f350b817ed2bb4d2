import Verif.Props.Towers

/-!
# C67: residual towers and MLP towers
-/

namespace JaxCfd
variable {d : ℕ}

theorem chanAdd_equivariant {x₁ x₂ y₁ y₂ : Chan d ℝ} (t : Idx d) (h₁ : y₁.Eqv (x₁.translate t)) (h₂ : y₂.Eqv (x₂.translate t)) :
    (∀ e, x₁.add x₂ = .error e → y₁.add y₂ = .error e) ∧ ∀ r, x₁.add x₂ = .ok r → r.shape = x₁.shape ∧ r.chan = x₁.chan ∧ ∃ r', y₁.add y₂ = .ok r' ∧ r'.Eqv (r.translate t) := by
  have s1 : y₁.shape = x₁.shape := h₁.1
  have s2 : y₂.shape = x₂.shape := h₂.1
  have c1 : y₁.chan = x₁.chan := h₁.2.1
  have c2 : y₂.chan = x₂.chan := h₂.2.1
  unfold Chan.add
  rw [s1, s2, c1, c2]
  split_ifs with h
  · refine ⟨(fun e h => nomatch h), fun r hr => ?_⟩
    cases hr
    refine ⟨rfl, rfl, _, rfl, rfl, rfl, fun i c hi c0 cc => ?_⟩
    dsimp only at hi cc ⊢
    rw [h₁.2.2 i c (by rw [s1]; exact hi) c0 (by rw [c1]; exact cc), h₂.2.2 i c (by rw [s2, ← h.1]; exact hi) c0 (by rw [c2, ← h.2]; exact cc)]
    show x₁.data _ c + x₂.data _ c = x₁.data _ c + x₂.data _ c
    rw [h.1]
  · exact ⟨(fun e h => h), (fun r h => nomatch h)⟩

theorem hiddenLayers_spec (conv : ConvModule d) (φ : ℝ → ℝ) (p : ℕ → ConvParams d) (layers : List (LayerSpec d)) (m : ℕ) (x : Chan d ℝ) :
    hiddenLayers conv φ p m layers x = (layers.zipIdx m).foldlM (fun y q => do
      let z ← conv (p q.2) q.1.channels q.1.kernel q.1.rate q.1.stride y
      pure (z.map φ)) x := by
  induction layers generalizing m x with
  | nil => rfl
  | cons s l ih =>
      unfold hiddenLayers
      rw [List.zipIdx_cons, List.foldlM_cons, bind_assoc]
      simp only [pure_bind, ih]

/-- **C67.** What a forward tower computes: `scale_input`, then for every entry `n` of `channels` the convolution with the `n`-th channel number, kernel shape, rate and stride and with its own parameters
followed by the nonlinearity, then the output convolution *without* nonlinearity, then `scale_output`. -/
theorem C67_tower_layers (out : LayerSpec d) (channels : List ℕ) (kernels : List (Fin d → ℕ)) (rates strides : List ℕ) (conv : ConvModule d) (φ : ℝ → ℝ) (scaleIn scaleOut : Net d)
    (p : ℕ → ConvParams d) (hk : kernels.length = channels.length) (hr : rates.length = channels.length) (hs : strides.length = channels.length) :
    ∃ F : Net d, flexTower out channels kernels (.tuple rates) (.tuple strides) conv φ scaleIn scaleOut p = .ok F ∧
      ∀ x, F x = scaleIn x >>= fun x => (List.finRange channels.length).foldlM (fun (y : Chan d ℝ) (n : Fin channels.length) => do
          let z ← conv (p n) channels[n] kernels[n] rates[n] strides[n] y
          pure (z.map φ)) x >>= fun y => conv (p channels.length) out.channels out.kernel out.rate out.stride y >>= scaleOut := by
  refine ⟨_, by unfold flexTower; exact if_pos ⟨hk, hr, hs⟩, fun x => ?_⟩
  unfold forwardPass IntOrTuple.expand
  dsimp only
  have hl : (zipLayers channels kernels rates strides).length = channels.length := by
    unfold zipLayers
    simp [hk, hr, hs]
  have hz : (zipLayers channels kernels rates strides).zipIdx 0 = (List.finRange channels.length).map fun (n : Fin channels.length) => ((⟨channels[n], kernels[n], rates[n], strides[n]⟩ : LayerSpec d), (n : ℕ)) := by
    refine List.ext_getElem (by simp [hl]) fun i h1 h2 => ?_
    simp [zipLayers]
  simp only [hiddenLayers_spec, hl, hz, List.foldlM_map]

/-- **C67.** An `int` for `rates` or `strides` means that every hidden layer has it. -/
theorem C67_tower_int (out : LayerSpec d) (channels : List ℕ) (kernels : List (Fin d → ℕ)) (rate stride : ℕ) (conv : ConvModule d) (φ : ℝ → ℝ) (scaleIn scaleOut : Net d) (p : ℕ → ConvParams d) :
    flexTower out channels kernels (.int rate) (.int stride) conv φ scaleIn scaleOut p =
      flexTower out channels kernels (.tuple (List.replicate channels.length rate)) (.tuple (List.replicate channels.length stride)) conv φ scaleIn scaleOut p := rfl

/-- **C67.** `fixed_scale` with the two reciprocal factors is the identity, and it is linear. -/
theorem C67_fixed_scale (s : ℝ) (hs : s ≠ 0) (x : Chan d ℝ) :
    (∃ y, fixedScale s x = .ok y ∧ y.shape = x.shape ∧ y.chan = x.chan ∧ (∀ i c, y.data i c = s * x.data i c)) ∧ (fixedScale s x >>= fixedScale (1 / s)) = .ok x := by
  refine ⟨⟨_, rfl, rfl, rfl, fun i c => mul_comm _ _⟩, ?_⟩
  refine congrArg Except.ok ?_
  have : (fun (i : Idx d) (c : ℤ) => x.data i c * s * (1 / s)) = x.data := by
    funext i c
    field_simp
  show ({ x with data := fun i c => x.data i c * s * (1 / s) } : Chan d ℝ) = x
  rw [this]

/-- **C67.** `residual_connection` of an equivariant module is equivariant. -/
theorem C67_residual_connection (f : Net d) (hf : Equivariant 1 1 f) : Equivariant 1 1 (residualConnection f) := by
  intro x y t hx hy
  obtain ⟨he, ho⟩ := hf x y t hx hy
  unfold residualConnection
  cases hfx : f x with
  | error e =>
      rw [he e hfx]
      exact ⟨(fun e h => h), (fun r h => nomatch h)⟩
  | ok u =>
      obtain ⟨u', hu', us, hu⟩ := ho u hfx
      rw [hu']
      simp only [Except.bind_ok]
      obtain ⟨h1, h2⟩ := chanAdd_equivariant _ hy hu
      refine ⟨h1, fun r hr => ?_⟩
      obtain ⟨rs, -, r', h3, h4⟩ := h2 r hr
      exact ⟨r', h3, fun a => by rw [rs], h4⟩

/-- **C67.** `residual_connection` adds the module's output to its input. -/
theorem C67_residual_connection_value (f : Net d) (x y : Chan d ℝ) (h : f x = .ok y) (hs : y.shape = x.shape) (hc : y.chan = x.chan) :
    ∃ r, residualConnection f x = .ok r ∧ r.shape = x.shape ∧ r.chan = x.chan ∧ ∀ i c, r.data i c = x.data i c + y.data i c := by
  unfold residualConnection
  rw [h]
  exact ⟨_, if_pos ⟨hs.symm, hc.symm⟩, rfl, rfl, fun i c => rfl⟩

/-- One block of a residual tower. -/
def residualBlock (block : ℕ → ℕ → Net d) (skipFn : Chan d ℝ → ℕ → Except Err (Chan d ℝ)) (n : ℕ) : Net d := fun x => do
  let skip ← skipFn x n
  let y ← block n skip.chan x
  skip.add y

theorem residualBlock_equivariant (block : ℕ → ℕ → Net d) (skipFn : Chan d ℝ → ℕ → Except Err (Chan d ℝ)) (n : ℕ) (hb : ∀ n c, Equivariant 1 1 (block n c))
    (hs : ∀ n, Equivariant 1 1 fun x => skipFn x n) : Equivariant 1 1 (residualBlock block skipFn n) := by
  intro x y t hx hy
  obtain ⟨he, ho⟩ := hs n x y t hx hy
  beta_reduce at he ho
  unfold residualBlock
  cases hfx : skipFn x n with
  | error e =>
      rw [he e hfx]
      exact ⟨(fun e h => h), (fun r h => nomatch h)⟩
  | ok u =>
      obtain ⟨u', hu', us, hu⟩ := ho u hfx
      rw [hu']
      simp only [Except.bind_ok]
      have uc : u'.chan = u.chan := hu.2.1
      rw [uc]
      obtain ⟨he2, ho2⟩ := hb n u.chan x y t hx hy
      cases hbx : block n u.chan x with
      | error e =>
          rw [he2 e hbx]
          exact ⟨(fun e h => h), (fun r h => nomatch h)⟩
      | ok v =>
          obtain ⟨v', hv', vs, hv⟩ := ho2 v hbx
          rw [hv']
          simp only [Except.bind_ok]
          obtain ⟨h1, h2⟩ := chanAdd_equivariant _ hu hv
          refine ⟨h1, fun r hr => ?_⟩
          obtain ⟨rs, -, r', h3, h4⟩ := h2 r hr
          exact ⟨r', h3, fun a => by rw [rs]; exact us a, h4⟩

theorem residualBlocks_succ (block : ℕ → ℕ → Net d) (skipFn : Chan d ℝ → ℕ → Except Err (Chan d ℝ)) (m : ℕ) :
    residualBlocks block skipFn (m + 1) = fun x => residualBlocks block skipFn m x >>= residualBlock block skipFn m := by
  funext x
  unfold residualBlocks residualBlock
  rw [List.range_succ, List.foldlM_append]
  simp only [List.foldlM_cons, List.foldlM_nil, bind_pure]

/-- **C67.** A residual tower of equivariant blocks, skip connections and scale functions is equivariant, whatever the number of blocks. -/
theorem C67_residual_tower_equivariant (numOut numBlocks : ℕ) (block : ℕ → ℕ → Net d) (skipFn : Chan d ℝ → ℕ → Except Err (Chan d ℝ)) (scaleIn scaleOut : Net d)
    (hb : ∀ n c, Equivariant 1 1 (block n c)) (hs : ∀ n, Equivariant 1 1 fun x => skipFn x n) (hi : Equivariant 1 1 scaleIn) (ho : Equivariant 1 1 scaleOut) :
    Equivariant 1 1 (residualTower numOut numBlocks block skipFn scaleIn scaleOut) := by
  have hl : ∀ m, Equivariant 1 1 (residualBlocks block skipFn m) := by
    intro m
    induction m with
    | zero => exact equivariant_ok
    | succ m ih =>
        rw [residualBlocks_succ]
        exact ih.comp one_pos one_pos (residualBlock_equivariant block skipFn m hb hs)
  exact hi.comp one_pos one_pos ((hl (numBlocks - 1)).comp one_pos one_pos ((hb _ numOut).comp one_pos one_pos ho))

/-- **C67.** If all blocks but the last return zeros (of the shape of their input), a residual tower with the default skip connections is its last block: the others only correct. -/
theorem C67_residual_tower_zero (numOut numBlocks : ℕ) (block : ℕ → ℕ → Net d) (scaleIn scaleOut : Net d)
    (hb : ∀ n x, n + 1 < numBlocks → block n x.chan x = .ok { x with data := fun _ _ => 0 }) (x : Chan d ℝ) :
    residualTower numOut numBlocks block (fun x _ => .ok x) scaleIn scaleOut x =
      (scaleIn x >>= fun y => block (numBlocks - 1) numOut y >>= scaleOut) := by
  have hl : ∀ m, m + 1 ≤ numBlocks ∨ m = 0 → ∀ x, residualBlocks block (fun x _ => .ok x) m x = .ok x := by
    intro m
    induction m with
    | zero => exact fun _ x => rfl
    | succ m ih =>
        intro hm x
        rw [residualBlocks_succ]
        beta_reduce
        rw [ih (by omega), Except.bind_ok]
        unfold residualBlock
        simp only [Except.bind_ok]
        rw [hb m x (by omega)]
        simp only [Except.bind_ok, Chan.add, and_self, if_true, add_zero]
  unfold residualTower
  have h := hl (numBlocks - 1) (by omega)
  simp only [h, Except.bind_ok]

/-! ## MLP towers -/

theorem linearLayer_congr (w : ℤ → ℤ → ℝ) (b : ℤ → ℝ) (n : ℕ) (u v : ℤ → ℝ) (h : ∀ c : ℤ, 0 ≤ c → c < n → u c = v c) : linearLayer w b n u = linearLayer w b n v := by
  funext co
  unfold linearLayer
  congr 1
  exact Finset.sum_congr rfl fun ci hci => by rw [h _ (Int.natCast_nonneg _) (by exact_mod_cast Finset.mem_range.1 hci)]

theorem mlp_congr (φ : ℝ → ℝ) (p : ℕ → (ℤ → ℤ → ℝ) × (ℤ → ℝ)) (k n : ℕ) (l : List ℕ) (hl : l ≠ []) (u v : ℤ → ℝ) (h : ∀ c : ℤ, 0 ≤ c → c < n → u c = v c) :
    mlp φ p k n l u = mlp φ p k n l v := by
  match l, hl with
  | [m], _ => exact linearLayer_congr _ _ n u v h
  | m :: m' :: l, _ =>
      show mlp φ p (k + 1) m (m' :: l) (fun c => φ (linearLayer (p k).1 (p k).2 n u c)) = mlp φ p (k + 1) m (m' :: l) (fun c => φ (linearLayer (p k).1 (p k).2 n v c))
      rw [linearLayer_congr _ _ n u v h]

/-- **C67.** An MLP tower works point by point: it is translation equivariant and its output at a point depends only on the channels at this point. -/
theorem C67_mlp_tower (outputSize units layers : ℕ) (φ : ℝ → ℝ) (p : ℕ → (ℤ → ℤ → ℝ) × (ℤ → ℝ)) :
    Equivariant (d := d) 1 1 (mlpTower outputSize units layers φ (fun x => .ok x) (fun x => .ok x) p) ∧
    DependsWithin (d := d) (fun _ => 0) (fun _ => 0) (mlpTower outputSize units layers φ (fun x => .ok x) (fun x => .ok x) p) :=
  equivariant_pointwise (fun _ => outputSize) (fun n v c => mlp φ p 0 n (List.replicate layers units ++ [outputSize]) v c) fun n u v h c _ _ => by
    rw [mlp_congr φ p 0 n _ (by simp) u v h]

/-- **C67.** The same with equivariant scale functions such as `scale_to_range`. -/
theorem C67_mlp_tower_scaled (outputSize units layers : ℕ) (φ : ℝ → ℝ) (p : ℕ → (ℤ → ℤ → ℝ) × (ℤ → ℝ)) (scaleIn scaleOut : Net d)
    (hi : Equivariant 1 1 scaleIn) (ho : Equivariant 1 1 scaleOut) : Equivariant (d := d) 1 1 (mlpTower outputSize units layers φ scaleIn scaleOut p) :=
  hi.comp one_pos one_pos ((C67_mlp_tower outputSize units layers φ p).1.comp one_pos one_pos ho)

/-- **C67.** An MLP tower without hidden layers is the linear map of its only layer at every point, and a hidden layer adds a linear map and the nonlinearity in front. -/
theorem C67_mlp_value (outputSize units : ℕ) (φ : ℝ → ℝ) (p : ℕ → (ℤ → ℤ → ℝ) × (ℤ → ℝ)) (x : Chan d ℝ) :
    (∃ r, mlpTower outputSize units 0 φ (fun x => .ok x) (fun x => .ok x) p x = .ok r ∧ r.shape = x.shape ∧ r.chan = outputSize ∧
      ∀ i co, r.data i co = ∑ ci ∈ Finset.range x.chan, x.data i ci * (p 0).1 ci co + (p 0).2 co) ∧
    (∃ r, mlpTower outputSize units 1 φ (fun x => .ok x) (fun x => .ok x) p x = .ok r ∧ r.shape = x.shape ∧ r.chan = outputSize ∧
      ∀ i co, r.data i co = ∑ h ∈ Finset.range units, φ (∑ ci ∈ Finset.range x.chan, x.data i ci * (p 0).1 ci h + (p 0).2 h) * (p 1).1 h co + (p 1).2 co) :=
  ⟨⟨_, rfl, rfl, rfl, fun _ _ => rfl⟩, ⟨_, rfl, rfl, rfl, fun _ _ => rfl⟩⟩

/-- Non-vacuity: a tower with one hidden layer of kernel size 3 on 4 points, translated by one point. -/
example : ∃ F : Net 1, forwardTower 1 2 3 1 (.int 1) (.int 1) 3 1 1 periodicConvModule (fun v => max v 0) (fun x => .ok x) (fun x => .ok x)
      (fun n => ⟨fun o ci co => o 0 + ci - co + n, fun co => co⟩) = .ok F ∧
    ∃ r r', F { shape := fun _ => 4, chan := 1, data := fun i _ => (i 0 : ℝ) ^ 2 } = .ok r ∧
      F (({ shape := fun _ => 4, chan := 1, data := fun i _ => (i 0 : ℝ) ^ 2 } : Chan 1 ℝ).translate fun _ => 1) = .ok r' ∧ r'.Eqv (r.translate fun _ => 1) := by
  obtain ⟨F, hF, he, -⟩ := C67_forward_tower (d := 1) 1 2 3 1 1 3 1 (by norm_num) (by norm_num) one_pos one_pos (fun v => max v 0)
    (fun n => ⟨fun o ci co => o 0 + ci - co + n, fun co => co⟩)
  refine ⟨F, hF, ?_⟩
  obtain ⟨r, hr, -, -⟩ := C67_tower_succeeds (Or.inl rfl) _ _ _ _ _ _ _ F hF
    ⟨fun q hq a => by rw [List.eq_of_mem_replicate hq]; norm_num, fun q hq => by rw [List.eq_of_mem_replicate hq]; norm_num,
      fun q hq => by rw [List.eq_of_mem_replicate hq]; exact one_pos, fun _ => by norm_num, one_pos, one_pos⟩ (fun q hq => List.eq_of_mem_replicate hq) rfl
    { shape := fun _ => 4, chan := 1, data := fun i _ => (i 0 : ℝ) ^ 2 } (fun _ => by norm_num) fun a =>
      ⟨fun k hk r hr => by rw [List.eq_of_mem_replicate hk, List.eq_of_mem_replicate hr]; norm_num [reachLeft], by norm_num [reachLeft]⟩
  obtain ⟨r', hr', -, h⟩ := (he _ (({ shape := fun _ => 4, chan := 1, data := fun i _ => (i 0 : ℝ) ^ 2 } : Chan 1 ℝ).translate (fun _ => 1)) (fun _ => 1)
    (fun a => ⟨by norm_num, one_dvd _⟩) (by simpa using Chan.Eqv.refl _)).2 r hr
  exact ⟨r, r', hr, hr', by simpa using h⟩

end JaxCfd
