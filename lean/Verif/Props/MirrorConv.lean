import Verif.Props.Towers
import Verif.Props.PadTrim
import Verif.Lemmas.Advection
import Verif.Props.Metrics

/-!
# C67: convolutions without periodic padding, and the displacement of `MirrorConv`
-/

namespace JaxCfd
variable {d : ℕ} {K : Type}

section periodic
variable [Field K] [HasNan K]
open BC

omit [Field K] [HasNan K] in
theorem isAligned_big {bc : BC d K} {u : GridArray d K} {ax : Fin d} (hper : bc.types ax = (.periodic, .periodic)) (h : u.grid.shape ax ≤ u.shape ax) : bc.isAligned u ax = .ok () := by
  unfold BC.isAligned
  simp [hper]
  omega

/-- Padding of a periodic array along one axis continues it periodically. -/
theorem pad_periodic (bc : BC d K) (u : GridArray d K) (lo hi : ℕ) (ax : Fin d) (mode : Padding) (hper : bc.types ax = (.periodic, .periodic))
    (hs : u.shape ax = u.grid.shape ax) (hpos : 0 < u.grid.shape ax) :
    bc.pad u (.pair lo hi) ax mode = .ok ⟨⟨Function.update u.shape ax (u.shape ax + lo + hi), fun i => u.data (Function.update i ax ((i ax - lo) % (u.shape ax : ℤ)))⟩,
      Function.update u.offset ax (u.offset ax - lo), u.grid⟩ := by
  have hn : 0 < u.shape ax := by omega
  unfold BC.pad
  rw [isAligned_big hper hs.ge, Except.bind_ok]
  dsimp only
  have h1 : bc.pad1 u (-(lo : ℤ)) ax mode = .ok ⟨⟨Function.update u.shape ax (u.shape ax + lo), fun i => u.data (Function.update i ax ((i ax - lo) % (u.shape ax : ℤ)))⟩,
      Function.update u.offset ax (u.offset ax - lo), u.grid⟩ := by
    unfold BC.pad1 BC.padByType
    rcases Nat.eq_zero_or_pos lo with rfl | hlo
    · simp only [BC.makePadding, Nat.cast_zero, neg_zero, lt_irrefl, if_false, hper]
      rw [trimPadding_periodic bc u ax _ hper hs]
      simp only [Except.bind_ok, add_zero]
      rw [jnpPad_ok _ _ _ _ (by simp) (by simp) (Or.inr hn)]
      simp only [Except.bind_ok, Except.pure_eq_ok]
      refine congrArg Except.ok (GridArray.ext' ?_ ?_ ?_ rfl)
      · simp
      · funext i
        simp [padData, padIdxData, wrapIdx]
      · simp
    · have hk : -(lo : ℤ) < 0 := by omega
      simp only [BC.makePadding, hk, if_true, hper]
      rw [trimPadding_periodic bc u ax _ hper hs]
      simp only [Except.bind_ok, neg_neg, add_zero]
      rw [jnpPad_ok _ _ _ _ (by simp) (by simp) (Or.inr hn)]
      simp only [Except.bind_ok, Except.pure_eq_ok]
      refine congrArg Except.ok (GridArray.ext' ?_ ?_ ?_ rfl)
      · simp
      · funext i
        simp [padData, padIdxData, wrapIdx]
      · simp
  rw [h1, Except.bind_ok]
  set v : GridArray d K := ⟨⟨Function.update u.shape ax (u.shape ax + lo), fun i => u.data (Function.update i ax ((i ax - lo) % (u.shape ax : ℤ)))⟩,
      Function.update u.offset ax (u.offset ax - lo), u.grid⟩ with hv
  have hvs : v.shape ax = u.shape ax + lo := by rw [hv]; simp
  obtain ⟨w, tr, hw, ws, t1, t2, wg, wsh, wsum, wd⟩ := trimPadding_periodic_big (bc := bc) (u := v) (ax := ax) hper (by rw [hvs]; show u.grid.shape ax ≤ _; omega) hpos
  unfold BC.pad1 BC.padByType
  have hk : ¬ (hi : ℤ) < 0 := by omega
  simp only [BC.makePadding, hk, if_false, hper, BC.needTrimming, if_true]
  rw [hw]
  simp only [Except.bind_ok]
  have hwn : 0 < w.shape ax := by rw [ws]; exact hpos
  rw [jnpPad_ok _ _ _ _ (by simp; omega) (by simp; omega) (Or.inr hwn)]
  simp only [Except.bind_ok, Except.pure_eq_ok]
  have hwg : w.shape ax = u.shape ax := by rw [ws]; exact hs.symm
  refine congrArg Except.ok (GridArray.ext' ?_ ?_ ?_ rfl)
  · funext b
    by_cases hb : b = ax
    · subst hb
      simp only [Function.update_self]
      omega
    · simp only [Function.update_of_ne hb]
      rw [wsh, Function.update_of_ne hb, hv]
      simp only [Function.update_of_ne hb]
  · funext i
    simp only [padData, padIdxData, wrapIdx, wd, hwg, hv]
    congr 1
    rw [Function.update_idem]
    simp only [Function.update_self, Function.update_idem]
    congr 1
    simp only [zero_add]
    refine Int.modEq_iff_dvd.2 ⟨((i ax - tr.1) / (u.shape ax : ℤ)), ?_⟩
    rw [Int.emod_def]
    ring
  · simp [hv]


/-- Padding of a periodic variable along all axes continues it periodically. -/
theorem padAll_periodic (bc : BC d K) (u : GridArray d K) (lo hi : ℕ) (mode : Padding) (hper : ∀ a, bc.types a = (.periodic, .periodic))
    (hs : u.shape = u.grid.shape) (hpos : ∀ a, 0 < u.grid.shape a) :
    bc.padAll u (fun _ => ((lo : ℤ), (hi : ℤ))) mode = .ok ⟨⟨fun a => u.shape a + lo + hi, fun i => u.data fun a => (i a - lo) % (u.shape a : ℤ)⟩, fun a => u.offset a - lo, u.grid⟩ := by
  unfold BC.padAll
  obtain ⟨y, hy, hP⟩ := foldlM_finRange_inv (fun u a => bc.pad u (.pair (lo : ℤ) (hi : ℤ)) a mode)
    (fun n v => v = ⟨⟨fun a => if (a : ℕ) < n then u.shape a + lo + hi else u.shape a, fun i => u.data fun a => if (a : ℕ) < n then (i a - lo) % (u.shape a : ℤ) else i a⟩,
      fun a => if (a : ℕ) < n then u.offset a - lo else u.offset a, u.grid⟩) (by
      intro a x hx
      refine ⟨_, ?_, rfl⟩
      rw [hx]
      refine (pad_periodic bc ⟨⟨fun b => if (b : ℕ) < a then u.shape b + lo + hi else u.shape b, fun i => u.data fun b => if (b : ℕ) < a then (i b - lo) % (u.shape b : ℤ) else i b⟩,
        fun b => if (b : ℕ) < a then u.offset b - lo else u.offset b, u.grid⟩ lo hi a mode (hper a) (by simp [hs]) (hpos a)).trans ?_
      refine congrArg Except.ok (GridArray.ext' ?_ ?_ ?_ rfl)
      · funext b
        by_cases hb : b = a
        · subst hb
          simp
        · have : ((b : ℕ) < a + 1) ↔ (b : ℕ) < a := by
            have : (b : ℕ) ≠ a := fun h => hb (Fin.ext h)
            omega
          simp [Function.update_of_ne hb, this]
      · funext i
        dsimp only
        congr 1
        funext b
        by_cases hb : b = a
        · subst hb
          simp
        · have : ((b : ℕ) < a + 1) ↔ (b : ℕ) < a := by
            have : (b : ℕ) ≠ a := fun h => hb (Fin.ext h)
            omega
          simp [Function.update_of_ne hb, this]
      · funext b
        by_cases hb : b = a
        · subst hb
          simp
        · have : ((b : ℕ) < a + 1) ↔ (b : ℕ) < a := by
            have : (b : ℕ) ≠ a := fun h => hb (Fin.ext h)
            omega
          simp [Function.update_of_ne hb, this]) u (by simp)
  rw [hP] at hy
  rw [hy]
  refine congrArg Except.ok (GridArray.ext' ?_ ?_ ?_ rfl) <;> simp

omit [Field K] [HasNan K] in
/-- Ghost cells of a periodic array with a non-negative offset are removed from its upper end. -/
theorem trimPadding_upper (bc : BC d K) (u : GridArray d K) (ax : Fin d) (hper : bc.types ax = (.periodic, .periodic)) (hge : u.grid.shape ax ≤ u.shape ax) (ho : 0 ≤ u.offset ax) :
    ∃ tr, bc.trimPadding u ax .both = .ok (⟨⟨Function.update u.shape ax (u.grid.shape ax), u.data⟩, u.offset, u.grid⟩, tr) := by
  have hlow : bc.trimPaddingLower u ax .both = .ok (u, 0) := by
    unfold trimPaddingLower
    by_cases h : u.offset ax ≤ 0 ∧ (TrimSide.both = TrimSide.both ∨ TrimSide.both = TrimSide.left)
    · have h0 : u.offset ax = 0 := le_antisymm h.1 ho
      rw [if_pos h]
      have : max (-⌈-(u.offset ax)⌉) ((u.grid.shape ax : ℤ) - u.shape ax) = 0 := by
        rw [h0]
        simp
        omega
      simp only [hper, if_true, this]
      rw [trim_zero]
      rfl
    · rw [if_neg h]
  unfold trimPadding
  rw [if_pos hge, hlow]
  simp only [Except.bind_ok]
  have hpt : bc.positiveTrim u ax .both = ((u.shape ax - u.grid.shape ax : ℕ) : ℤ) := by
    unfold positiveTrim
    simp only [hper, or_true, if_true]
    omega
  rw [hpt]
  have ht : trimUpperIf u ((u.shape ax - u.grid.shape ax : ℕ) : ℤ) ax = .ok ⟨⟨Function.update u.shape ax (u.grid.shape ax), u.data⟩, u.offset, u.grid⟩ := by
    unfold trimUpperIf
    by_cases h : ((u.shape ax - u.grid.shape ax : ℕ) : ℤ) > 0
    · rw [if_pos h, trim_upper _ _ _ (by omega)]
      have : u.shape ax - (u.shape ax - u.grid.shape ax) = u.grid.shape ax := by omega
      rw [this]
    · rw [if_neg h]
      have : u.grid.shape ax = u.shape ax := by omega
      rw [this, Function.update_eq_self]
  rw [ht]
  exact ⟨_, rfl⟩

theorem trimBoundary_upper (bc : BC d K) (u : GridArray d K) (hper : ∀ a, bc.types a = (.periodic, .periodic)) (hge : ∀ a, u.grid.shape a ≤ u.shape a) (ho : ∀ a, 0 ≤ u.offset a) :
    bc.trimBoundary u = .ok ⟨⟨u.grid.shape, u.data⟩, u.offset, u.grid⟩ := by
  unfold BC.trimBoundary
  obtain ⟨y, hy, hP⟩ := foldlM_finRange_inv (fun u a => bc.trimBoundaryAxis u a)
    (fun n v => v = ⟨⟨fun a => if (a : ℕ) < n then u.grid.shape a else u.shape a, u.data⟩, u.offset, u.grid⟩) (by
      intro a x hx
      refine ⟨_, ?_, rfl⟩
      rw [hx]
      unfold BC.trimBoundaryAxis
      rw [isAligned_big (hper a) (by simp [hge a]), Except.bind_ok]
      obtain ⟨tr, h⟩ := trimPadding_upper bc ⟨⟨fun a_1 => if (a_1 : ℕ) < a then u.grid.shape a_1 else u.shape a_1, u.data⟩, u.offset, u.grid⟩ a (hper a) (by simp [hge a]) (ho a)
      rw [h]
      simp only [Except.bind_ok, Except.pure_eq_ok]
      refine congrArg Except.ok (GridArray.ext' ?_ rfl rfl rfl)
      funext b
      by_cases hb : b = a
      · subst hb
        simp
      · have : ((b : ℕ) < a + 1) ↔ (b : ℕ) < a := by
          have : (b : ℕ) ≠ a := fun h => hb (Fin.ext h)
          omega
        simp [Function.update_of_ne hb, this]) u (by simp)
  rw [hP] at hy
  rw [hy]
  simp

/-- `impose_bc` of a periodic array with ghost cells beyond the upper end of the grid keeps the first entries along every axis. -/
theorem imposeBC_upper (bc : BC d K) (u : GridArray d K) (hper : ∀ a, bc.types a = (.periodic, .periodic)) (hge : ∀ a, u.grid.shape a ≤ u.shape a) (ho : ∀ a, 0 ≤ u.offset a) :
    bc.imposeBC u = .ok ⟨⟨⟨u.grid.shape, u.data⟩, u.offset, u.grid⟩, bc⟩ := by
  have htrim := trimBoundary_upper bc u hper hge ho
  have h2 := imposeBC_periodic bc ⟨⟨u.grid.shape, u.data⟩, u.offset, u.grid⟩ hper (fun a => rfl)
  unfold BC.imposeBC at h2 ⊢
  rw [htrim, Except.bind_ok]
  have h3 := trimBoundary_upper bc ⟨⟨u.grid.shape, u.data⟩, u.offset, u.grid⟩ hper (fun a => le_rfl) ho
  rw [h3, Except.bind_ok] at h2
  exact h2

end periodic

/-! ## The convolutions -/

/-- **C67.** A convolution without padding (`non_periodic_convolution`): output `j` is the kernel applied to the window that starts at `j`; an axis with `n` points becomes one with
`n - (k - 1) * rate` points.  No input outside the array is used. -/
theorem C67_non_periodic_conv (p : ConvParams d) (cout : ℕ) (k : Fin d → ℕ) (rate : ℕ) (x : Chan d ℝ) :
    ∃ r : Chan d ℝ, nonPeriodicConv p cout k rate x = .ok r ∧ (∀ a, r.shape a = x.shape a - (k a - 1) * rate) ∧ r.chan = cout ∧
      (∀ (i : Idx d) (co : ℤ), r.data i co = (∑ o ∈ Fintype.piFinset fun a => Finset.range (k a), ∑ ci ∈ Finset.range x.chan,
          x.data (fun a => i a + rate * (o a : ℕ)) ci * p.w (fun a => (o a : ℤ)) ci co) + p.b co) ∧
      ∀ i : Idx d, InR r.shape i → ∀ o ∈ Fintype.piFinset fun a => Finset.range (k a), InR x.shape fun a => i a + rate * (o a : ℕ) := by
  have hrun : nonPeriodicConv p cout k rate x = .ok { shape := fun a => x.shape a + 1 - ((k a - 1) * rate + 1), chan := cout, data := fun i co =>
      (∑ o ∈ Fintype.piFinset fun a => Finset.range (k a), ∑ ci ∈ Finset.range x.chan,
          x.data (fun a => i a + rate * (o a : ℕ)) ci * p.w (fun a => (o a : ℤ)) ci co) + p.b co } := by
    simp [nonPeriodicConv, hkConv, convGeneralDilated, bind, Except.bind, pure, Except.pure]
  refine ⟨_, hrun, ?_, rfl, fun _ _ => rfl, ?_⟩
  · intro a
    show x.shape a + 1 - ((k a - 1) * rate + 1) = _
    omega
  · intro i hi o ho a
    have h := hi a
    have h2 : i a < ((x.shape a + 1 - ((k a - 1) * rate + 1) : ℕ) : ℤ) := h.2
    have h1 : o a ≤ k a - 1 := by have := Finset.mem_range.1 (Fintype.mem_piFinset.1 ho a); omega
    have h3 := Nat.mul_le_mul_left rate h1
    rw [mul_comm rate (k a - 1)] at h3
    have h4 : (rate : ℤ) * (o a : ℕ) ≤ ((k a - 1) * rate : ℕ) := by exact_mod_cast h3
    have h5 : (0 : ℤ) ≤ (rate : ℤ) * (o a : ℕ) := by positivity
    dsimp only
    have := h.1
    generalize (k a - 1) * rate = q at *
    constructor <;> omega

/-- **C67.** Away from the boundary a convolution without padding agrees with the periodic one: its output `j` is the output of the periodic convolution at `j + reachLeft`. -/
theorem C67_non_periodic_interior (hd : d = 1 ∨ d = 2 ∨ d = 3) (p : ConvParams d) (cout : ℕ) (k : Fin d → ℕ) (hk : ∀ a, 0 < k a) (rate : ℕ) (hr : 0 < rate) (x : Chan d ℝ)
    (hx : ∀ a, 0 < x.shape a) (hle : ∀ a, reachLeft (k a) rate ≤ x.shape a) (r s : Chan d ℝ) (h1 : nonPeriodicConv p cout k rate x = .ok r)
    (h2 : periodicConvModule p cout k rate 1 x = .ok s) (i : Idx d) (hi : InR r.shape i) (co : ℤ) (c0 : 0 ≤ co) (c1 : co < cout) :
    r.data i co = s.data (fun a => i a + reachLeft (k a) rate) co := by
  obtain ⟨r', hr', rs, rc, rd, rin⟩ := C67_non_periodic_conv p cout k rate x
  obtain ⟨s', hs', ss, sc, sd⟩ := (C67_strided_conv hd p cout k hk rate 1 hr Nat.one_pos x hx).2 hle
  rw [h1] at hr'
  rw [h2] at hs'
  cases hr'
  cases hs'
  rw [rd, sd _ co ?_ c0 c1]
  · congr 1
    refine Finset.sum_congr rfl fun o ho => Finset.sum_congr rfl fun ci _ => ?_
    have e : (fun a => ((1 : ℕ) : ℤ) * (i a + (reachLeft (k a) rate : ℕ)) + (rate : ℤ) * (o a : ℕ) - (reachLeft (k a) rate : ℕ)) = fun a => i a + (rate : ℤ) * (o a : ℕ) := by
      funext a
      push_cast
      ring
    rw [e, x.per_of_inR (rin i hi o ho)]
  · intro a
    have h := hi a
    rw [rs a] at h
    rw [ss a]
    simp only [Nat.sub_self, Nat.add_zero, Nat.div_one]
    have : reachLeft (k a) rate ≤ (k a - 1) * rate := by
      unfold reachLeft
      rcases Nat.eq_zero_or_pos ((k a - 1) * rate) with h0 | h0 <;> omega
    generalize reachLeft (k a) rate = q at *
    generalize (k a - 1) * rate = q' at *
    constructor <;> omega

theorem concatChannels_ok (l : List (GridArray d ℝ)) (hl : l ≠ []) (s : Fin d → ℕ) (hs : ∀ v ∈ l, v.shape = s) :
    concatChannels l = .ok { batch := 1, shape := s, chan := l.length, data := fun _ i c => (l[c.toNat]?).elim 0 fun v => v.data i } := by
  unfold concatChannels
  match l, hl with
  | u :: l', _ =>
    dsimp only
    have hu := hs u (by simp)
    rw [if_pos (fun v hv => by rw [hs v hv, hu]), hu]

theorem mirrorPadding_eq (k : Fin d → ℕ) (hk : ∀ a, 0 < k a) (rate : ℕ) (hr : 0 < rate) :
    mirrorPadding k rate = (∑ b, reachLeft (k b) rate, ∑ b, reachRight (k b) rate) := by
  unfold mirrorPadding
  congr 1 <;> refine Finset.sum_congr rfl fun b _ => ?_
  · exact (periodicConvPadding_sum (hk b) hr).1
  · have h := periodicConvPadding_sum (hk b) hr
    unfold reachRight
    omega

/-- **C67.** `MirrorConv` of periodic variables: output `c` has the shape, the offset and the boundary condition of input `c`, and is the kernel applied to the window of the periodic inputs that starts
`S = ∑_b reachLeft (k b)` points before — the reach of *all* the axes of the kernel, along every axis. -/
theorem C67_mirror_conv_periodic [HasNan ℝ] (p : ConvParams d) (cout : ℕ) (k : Fin d → ℕ) (hk : ∀ a, 0 < k a) (rate : ℕ) (hr : 0 < rate) (N : Fin d → ℕ) (hN : ∀ a, 0 < N a)
    (inputs : List (GridVariable d ℝ)) (hne : inputs ≠ [])
    (hin : ∀ u ∈ inputs, (∀ a, u.bc.types a = (.periodic, .periodic)) ∧ u.array.shape = N ∧ u.array.grid.shape = N ∧ ∀ a, 0 ≤ u.array.offset a) :
    ∃ out, mirrorConv p cout k rate inputs = .ok out ∧ out.length = min cout inputs.length ∧
      ∀ (c : ℕ) (h : c < out.length) (h' : c < inputs.length), out[c].array.shape = N ∧ out[c].array.offset = inputs[c].array.offset ∧ out[c].array.grid = inputs[c].array.grid ∧ out[c].bc = inputs[c].bc ∧
        ∀ i : Idx d, out[c].array.data i = (∑ o ∈ Fintype.piFinset fun a => Finset.range (k a), ∑ ci : Fin inputs.length,
          inputs[ci].array.data (fun a => (i a + rate * (o a : ℕ) - ∑ b, (reachLeft (k b) rate : ℤ)) % (N a : ℤ)) * p.w (fun a => (o a : ℤ)) ci c) + p.b c := by
  have hpad : inputs.mapM (fun u => u.bc.padAll u.array (fun _ => (((mirrorPadding k rate).1 : ℤ), ((mirrorPadding k rate).2 : ℤ))) .mirror) =
      .ok (inputs.map fun u : GridVariable d ℝ => (⟨⟨fun a => N a + (mirrorPadding k rate).1 + (mirrorPadding k rate).2,
        fun i => u.array.data fun a => (i a - (mirrorPadding k rate).1) % (N a : ℤ)⟩, fun a => u.array.offset a - (mirrorPadding k rate).1, u.array.grid⟩ : GridArray d ℝ)) := by
    refine Metric.mapM_ok_map _ _ _ fun u hu => ?_
    obtain ⟨h1, h2, h3, h4⟩ := hin u hu
    rw [padAll_periodic _ _ _ _ _ h1 (by rw [h2, h3]) (by rw [h3]; exact hN), h2]
  unfold mirrorConv
  rw [hpad, Except.bind_ok, concatChannels_ok _ (by simpa using hne) (fun a => N a + (mirrorPadding k rate).1 + (mirrorPadding k rate).2) (by simp), Except.bind_ok]
  simp only [hkConv, convGeneralDilated, ne_eq, not_true_eq_false, if_false, Except.bind_ok, pure_bind]
  have hsum : ∀ a, (k a - 1) * rate ≤ (mirrorPadding k rate).1 + (mirrorPadding k rate).2 := by
    intro a
    rw [← (periodicConvPadding_sum (hk a) hr).2]
    exact add_le_add (Finset.single_le_sum (f := fun b => (periodicConvPadding (k b) rate).1) (fun _ _ => Nat.zero_le _) (Finset.mem_univ a))
      (Finset.single_le_sum (f := fun b => (periodicConvPadding (k b) rate).2) (fun _ _ => Nat.zero_le _) (Finset.mem_univ a))
  rw [Metric.mapM_ok_map _ (fun q : ℕ × GridVariable d ℝ => (⟨⟨⟨N, fun i => (∑ o ∈ Fintype.piFinset fun a => Finset.range (k a), ∑ ci ∈ Finset.range inputs.length,
          (inputs[ci]?.elim 0 fun v => v.array.data fun a => (i a + rate * (o a : ℕ) - (mirrorPadding k rate).1) % (N a : ℤ)) * p.w (fun a => (o a : ℤ)) ci q.1) + p.b q.1⟩,
            q.2.array.offset, q.2.array.grid⟩, q.2.bc⟩ : GridVariable d ℝ)) _ ?_]
  · refine ⟨_, rfl, by simp, ?_⟩
    intro c h h'
    simp only [List.getElem_map, List.getElem_zip, List.getElem_range]
    refine ⟨trivial, trivial, trivial, trivial, fun i => ?_⟩
    congr 1
    refine Finset.sum_congr rfl fun o _ => ?_
    rw [Finset.sum_range]
    refine Finset.sum_congr rfl fun ci _ => ?_
    rw [List.getElem?_eq_getElem ci.2, mirrorPadding_eq k hk rate hr]
    push_cast
    rfl
  · rintro ⟨c, u⟩ hq
    have hu : u ∈ inputs := (List.of_mem_zip hq).2
    obtain ⟨h1, h2, h3, h4⟩ := hin u hu
    dsimp only
    refine (imposeBC_upper u.bc _ (by exact h1) (fun a => ?_) (by exact h4)).trans ?_
    · dsimp only
      rw [h3]
      have := hsum a
      omega
    · dsimp only
      rw [h3]
      simp only [List.length_map, Int.toNat_natCast, List.getElem?_map]
      refine congrArg Except.ok ?_
      congr 3
      funext i
      congr 1
      refine Finset.sum_congr rfl fun o _ => Finset.sum_congr rfl fun ci hci => ?_
      rw [List.getElem?_eq_getElem (Finset.mem_range.1 hci)]
      rfl

/-- **C67.** Where `MirrorConv` differs from `PeriodicConv` with the same kernel: output `c` of `MirrorConv` is the output of `PeriodicConv` displaced, along axis `a`, by the reach of all the *other* axes of
the kernel.  They agree for kernels that extend along one axis only. -/
theorem C67_mirror_conv_displaced [HasNan ℝ] (hd : d = 1 ∨ d = 2 ∨ d = 3) (p : ConvParams d) (cout : ℕ) (k : Fin d → ℕ) (hk : ∀ a, 0 < k a) (rate : ℕ) (hr : 0 < rate) (N : Fin d → ℕ)
    (hle : ∀ a, 0 < N a ∧ reachLeft (k a) rate ≤ N a) (inputs : List (GridVariable d ℝ)) (hne : inputs ≠ [])
    (hin : ∀ u ∈ inputs, (∀ a, u.bc.types a = (.periodic, .periodic)) ∧ u.array.shape = N ∧ u.array.grid.shape = N ∧ ∀ a, 0 ≤ u.array.offset a) :
    ∃ out y, mirrorConv p cout k rate inputs = .ok out ∧
      periodicConvModule p cout k rate 1 { shape := N, chan := inputs.length, data := fun i c => (inputs[c.toNat]?).elim 0 fun v => v.array.data i } = .ok y ∧
      ∀ (c : ℕ) (h : c < out.length), ∀ i : Idx d,
        out[c].array.data i = y.data (fun a => (i a - ∑ b ∈ Finset.univ.erase a, (reachLeft (k b) rate : ℤ)) % (N a : ℤ)) c := by
  obtain ⟨out, hout, olen, od⟩ := C67_mirror_conv_periodic p cout k hk rate hr N (fun a => (hle a).1) inputs hne hin
  obtain ⟨y, hy, ys, yc, yd⟩ := (C67_strided_conv hd p cout k hk rate 1 hr Nat.one_pos { shape := N, chan := inputs.length, data := fun i c => (inputs[c.toNat]?).elim 0 fun v => v.array.data i }
    (fun a => (hle a).1)).2 fun a => (hle a).2
  refine ⟨out, y, hout, hy, fun c h i => ?_⟩
  have hc1 : c < cout := by omega
  have hc2 : c < inputs.length := by omega
  rw [(od c h hc2).2.2.2.2 i, yd _ (c : ℤ) ?_ (by omega) (by exact_mod_cast hc1)]
  · congr 1
    refine Finset.sum_congr rfl fun o _ => ?_
    rw [Finset.sum_range]
    refine Finset.sum_congr rfl fun ci _ => ?_
    unfold Chan.per
    simp only [Int.toNat_natCast]
    rw [List.getElem?_eq_getElem ci.2]
    simp only [Option.elim_some]
    congr 2
    funext a
    rw [← Finset.add_sum_erase _ _ (Finset.mem_univ a)]
    push_cast
    generalize ∑ b ∈ Finset.univ.erase a, (reachLeft (k b) rate : ℤ) = S
    refine Int.modEq_iff_dvd.2 ⟨-((i a - S) / (N a : ℤ)), ?_⟩
    rw [Int.emod_def]
    ring
  · intro a
    rw [ys a]
    simp only [Nat.sub_self, Nat.add_zero, Nat.div_one]
    exact Chan.mod_inR N (fun a => (hle a).1) (fun a => i a - ∑ b ∈ Finset.univ.erase a, (reachLeft (k b) rate : ℤ)) a

/-- The kernel that is 1 at its centre. -/
noncomputable def centreKernel : ConvParams 2 := ⟨fun o _ _ => if o 0 = 1 ∧ o 1 = 1 then 1 else 0, fun _ => 0⟩

/-- **C67, a defect.** With a 3×3 kernel that is 1 at its centre and 0 elsewhere — the identity for `PeriodicConv` — `MirrorConv` moves the periodic field by one cell along both axes. -/
theorem C67_mirror_conv_defect [HasNan ℝ] (u : GridVariable 2 ℝ) (hper : ∀ a, u.bc.types a = (.periodic, .periodic)) (hs : u.array.shape = u.array.grid.shape) (hpos : ∀ a, 0 < u.array.shape a)
    (ho : ∀ a, 0 ≤ u.array.offset a) :
    ∃ v, mirrorConv centreKernel 1 (fun _ => 3) 1 [u] = .ok [v] ∧ v.array.shape = u.array.shape ∧
      ∀ i : Idx 2, v.array.data i = u.array.data fun a => (i a - 1) % (u.array.shape a : ℤ) := by
  obtain ⟨out, hout, olen, od⟩ := C67_mirror_conv_periodic centreKernel 1 (fun _ => 3) (fun _ => by norm_num) 1 one_pos u.array.shape hpos [u] (by simp)
    (fun w hw => by rw [List.mem_singleton.1 hw]; exact ⟨hper, rfl, hs.symm, ho⟩)
  obtain ⟨v, rfl⟩ : ∃ v, out = [v] := List.length_eq_one_iff.1 (by simpa using olen)
  obtain ⟨h1, -, -, -, h2⟩ := od 0 (by simp) (by simp)
  refine ⟨v, hout, h1, fun i => (h2 i).trans ?_⟩
  rw [Finset.sum_eq_single (fun _ => 1)]
  · simp [centreKernel, reachLeft]
    congr 1
    funext a
    congr 1
    ring
  · intro o _ hne
    have : ¬ (((o 0 : ℕ) : ℤ) = 1 ∧ ((o 1 : ℕ) : ℤ) = 1) := by
      rintro ⟨a, b⟩
      refine hne (funext fun c => ?_)
      fin_cases c
      · exact_mod_cast a
      · exact_mod_cast b
    refine Finset.sum_eq_zero fun ci _ => ?_
    show _ * (if ((o 0 : ℕ) : ℤ) = 1 ∧ ((o 1 : ℕ) : ℤ) = 1 then (1 : ℝ) else 0) = 0
    rw [if_neg this, mul_zero]
  · intro h
    exact absurd (Fintype.mem_piFinset.2 fun a => by simp) h

/-- A cell-centred periodic 3×4 field meets the hypotheses and is moved: the value at `(1, 1)` is what the field has at `(0, 0)`. -/
example [HasNan ℝ] : ∃ v, mirrorConv centreKernel 1 (fun _ => 3) 1
    [⟨⟨⟨![3, 4], fun i => i 0 + 10 * i 1⟩, fun _ => 1 / 2, ⟨![3, 4], fun _ => (0, 1)⟩⟩, constantBC (fun _ => (.periodic, .periodic)) (fun _ => (none, none))⟩] = .ok [v] ∧ v.array.data ![1, 1] = 0 := by
  obtain ⟨v, h1, -, h2⟩ := C67_mirror_conv_defect ⟨⟨⟨![3, 4], fun i => i 0 + 10 * i 1⟩, fun _ => 1 / 2, ⟨![3, 4], fun _ => (0, 1)⟩⟩, constantBC (fun _ => (.periodic, .periodic)) (fun _ => (none, none))⟩
    (fun _ => rfl) rfl (fun a => by fin_cases a <;> simp) (fun _ => by norm_num)
  refine ⟨v, h1, ?_⟩
  rw [h2]
  simp

end JaxCfd
