import Verif.Lemmas.Tiling
import Mathlib.Tactic.FinCases
import Mathlib.Data.Fin.VecNotation

/-!
# C50: tiling of periodic convolutions (`ml/tiling.py`) is invisible
-/

namespace JaxCfd
variable {d : ℕ} {K : Type}

/-- `space_to_batch` puts the block with tile coordinates `t` at the row-major position of `t`. -/
theorem C50_space_to_batch (hd : d = 1 ∨ d = 2 ∨ d = 3) (x : Chan d K) (L : Fin d → ℕ) (hL : ∀ a, 0 < L a)
    (hdiv : ∀ a, L a ∣ x.shape a) :
    ∃ y : Tiled d K, spaceToBatch x L = .ok y ∧ y.batch = ∏ a, L a ∧ y.chan = x.chan ∧
      (∀ a, L a * y.shape a = x.shape a) ∧
      ∀ (t j : Idx d) (c : ℤ), InR L t →
        y.data (ravelIdx (List.ofFn L) (List.ofFn t)) j c = x.data (fun a => t a * y.shape a + j a) c := by
  have hd' : tileRank d = true := by rcases hd with rfl | rfl | rfl <;> rfl
  refine ⟨_, spaceToBatch_ok hd' hL hdiv, ?_, rfl, fun a => Nat.mul_div_cancel' (hdiv a), ?_⟩
  · simp [layoutSize, List.prod_ofFn]
  · intro t j c ht
    dsimp only
    have : tileIdx L (ravelIdx (List.ofFn L) (List.ofFn t)) = t := tileIdx_tileNum ht
    rw [this]

/-- Rearranging to the batch axis and back gives the same array, for every layout dividing the shape. -/
theorem C50_round_trip (hd : d = 1 ∨ d = 2 ∨ d = 3) (x : Chan d K) (L : Fin d → ℕ) (hL : ∀ a, 0 < L a)
    (hdiv : ∀ a, L a ∣ x.shape a) :
    ∃ (y : Tiled d K) (z : Chan d K), spaceToBatch x L = .ok y ∧ batchToSpace y L = .ok z ∧ z.Eqv x := by
  have hd' : tileRank d = true := by rcases hd with rfl | rfl | rfl <;> rfl
  refine ⟨_, _, spaceToBatch_ok hd' hL hdiv, batchToSpace_ok hd' rfl, ?_, rfl, ?_⟩
  · funext a
    exact Nat.mul_div_cancel' (hdiv a)
  · intro i c hi _ _
    dsimp only at hi ⊢
    rw [tileIdx_tileNum (tile_of_pos hi).1]
    congr 1
    funext a
    exact Int.ediv_mul_add_emod _ _

/-- The other way round. -/
theorem C50_round_trip_batch (hd : d = 1 ∨ d = 2 ∨ d = 3) (y : Tiled d K) (L : Fin d → ℕ) (hL : ∀ a, 0 < L a)
    (hb : y.batch = ∏ a, L a) :
    ∃ (x : Chan d K) (z : Tiled d K), batchToSpace y L = .ok x ∧ spaceToBatch x L = .ok z ∧
      z.batch = y.batch ∧ z.shape = y.shape ∧ z.chan = y.chan ∧
      ∀ (b : ℤ) (j : Idx d) (c : ℤ), 0 ≤ b → b < y.batch → InR y.shape j → z.data b j c = y.data b j c := by
  have hd' : tileRank d = true := by rcases hd with rfl | rfl | rfl <;> rfl
  have hb' : y.batch = layoutSize L := by rw [hb]; simp [layoutSize, List.prod_ofFn]
  have hs : ∀ a, L a * y.shape a / L a = y.shape a := fun a => Nat.mul_div_cancel_left _ (hL a)
  refine ⟨_, _, batchToSpace_ok hd' hb', spaceToBatch_ok hd' hL (fun a => Dvd.intro _ rfl), hb'.symm, funext hs, rfl, ?_⟩
  intro b j c h0 h1 hj
  dsimp only
  simp only [hs]
  have e : ∀ a, (tileIdx L b a * (y.shape a : ℤ) + j a) / y.shape a = tileIdx L b a ∧ (tileIdx L b a * (y.shape a : ℤ) + j a) % y.shape a = j a := by
    intro a
    obtain ⟨j0, j1⟩ := hj a
    constructor
    · rw [add_comm, Int.add_mul_ediv_right _ _ (by omega), Int.ediv_eq_zero_of_lt j0 j1, zero_add]
    · rw [add_comm, Int.add_mul_emod_self_right, Int.emod_eq_of_lt j0 j1]
  simp only [e]
  rw [tileNum_tileIdx h0 (by rw [← hb']; exact h1)]

/-- Halo exchange: in every tile of the padded array, local position `j` holds the entry of the periodic
array at global position `tile * tile_size + j - pad_left`, corners included. -/
theorem C50_halo (hd : d = 1 ∨ d = 2 ∨ d = 3) (x : Chan d K) (L : Fin d → ℕ) (hL : ∀ a, 0 < L a) (hx : ∀ a, 0 < x.shape a)
    (hdiv : ∀ a, L a ∣ x.shape a) (pad : Fin d → ℕ × ℕ)
    (h1 : ∀ a, (pad a).1 ≤ x.shape a / L a) (h2 : ∀ a, (pad a).2 ≤ x.shape a / L a) :
    ∃ y z : Tiled d K, spaceToBatch x L = .ok y ∧ haloExchangePad y L pad = .ok z ∧ z.batch = ∏ a, L a ∧ z.chan = x.chan ∧
      (∀ a, z.shape a = (pad a).1 + x.shape a / L a + (pad a).2) ∧
      ∀ (t j : Idx d) (c : ℤ), InR L t → InR z.shape j →
        z.data (ravelIdx (List.ofFn L) (List.ofFn t)) j c =
          x.per (fun a => t a * (x.shape a / L a : ℕ) + j a - (pad a).1) c := by
  have hd' : tileRank d = true := by rcases hd with rfl | rfl | rfl <;> rfl
  have hn : ∀ a, 0 < x.shape a / L a := fun a => Nat.div_pos (Nat.le_of_dvd (hx a) (hdiv a)) (hL a)
  have hLn : ∀ a, L a * (x.shape a / L a) = x.shape a := fun a => Nat.mul_div_cancel' (hdiv a)
  have hy := spaceToBatch_ok hd' hL hdiv
  obtain ⟨z, hz, zb, zc, zs, zd⟩ := haloExchangePad_ok (y := { batch := layoutSize L, shape := fun a => x.shape a / L a, chan := x.chan, data := fun b j c => x.data (fun a => tileIdx L b a * (x.shape a / L a : ℕ) + j a) c })
    hd' rfl hL pad hn h1 h2
  refine ⟨_, z, hy, hz, ?_, zc, fun a => by rw [zs], ?_⟩
  · rw [zb]; simp [layoutSize, List.prod_ofFn]
  · intro t j c ht hj
    rw [zs] at hj
    have := zd t j c ht hj
    unfold tileNum at this
    rw [this]
    dsimp only
    have e : tileIdx L (ravelIdx (List.ofFn L) (List.ofFn fun a => (t a * ((x.shape a / L a : ℕ) : ℤ) + (j a - ((pad a).1 : ℤ))) % ((L a * (x.shape a / L a) : ℕ) : ℤ) / ((x.shape a / L a : ℕ) : ℤ))) =
        fun a => (t a * ((x.shape a / L a : ℕ) : ℤ) + (j a - ((pad a).1 : ℤ))) % ((L a * (x.shape a / L a) : ℕ) : ℤ) / ((x.shape a / L a : ℕ) : ℤ) := by
      apply tileIdx_tileNum
      intro a
      have hpos : (0 : ℤ) < ((L a * (x.shape a / L a) : ℕ) : ℤ) := by rw [hLn]; exact_mod_cast hx a
      have hnp : (0 : ℤ) < ((x.shape a / L a : ℕ) : ℤ) := by exact_mod_cast hn a
      refine ⟨Int.ediv_nonneg (Int.emod_nonneg _ hpos.ne') hnp.le, Int.ediv_lt_of_lt_mul hnp ?_⟩
      have := Int.emod_lt_of_pos (t a * ((x.shape a / L a : ℕ) : ℤ) + (j a - ((pad a).1 : ℤ))) hpos
      rw [Nat.cast_mul] at this ⊢
      exact this
    rw [e]
    unfold Chan.per
    congr 1
    funext a
    dsimp only
    rw [Int.ediv_mul_add_emod, hLn, add_sub_assoc]

/-- A halo wider than a tile is refused (the neighbouring tile does not hold enough values). -/
theorem C50_halo_too_wide (hd : d = 1 ∨ d = 2 ∨ d = 3) (y : Tiled d K) (L : Fin d → ℕ) (hL : ∀ a, 0 < L a)
    (hb : y.batch = ∏ a, L a) (hy : ∀ a, 0 < y.shape a) (pad : Fin d → ℕ × ℕ)
    (h : ∃ a, y.shape a < (pad a).1 ∨ y.shape a < (pad a).2) : haloExchangePad y L pad = .error .type := by
  have hd' : tileRank d = true := by rcases hd with rfl | rfl | rfl <;> rfl
  exact haloExchangePad_wide hd' (by rw [hb]; simp [layoutSize, List.prod_ofFn]) hL pad hy h

/-- A layout not dividing the shape is refused, and so are more than three dimensions. -/
theorem C50_rejects (x : Chan d K) (L : Fin d → ℕ) :
    (d = 0 ∨ 3 < d → spaceToBatch x L = .error .notImplemented) ∧
    (d = 1 ∨ d = 2 ∨ d = 3 → (∀ a, 0 < L a) → (∃ a, ¬ L a ∣ x.shape a) → spaceToBatch x L = .error .runtime) := by
  constructor
  · intro h
    unfold spaceToBatch
    rw [if_pos]
    simp only [tileRank, Bool.or_eq_false_iff, beq_eq_false_iff_ne]
    omega
  · rintro hd hL ⟨a, ha⟩
    have hd' : tileRank d = true := by rcases hd with rfl | rfl | rfl <;> rfl
    unfold spaceToBatch
    rw [if_neg (by simp [hd']), if_neg (by rintro ⟨a, ha⟩; have := hL a; omega),
      if_pos ⟨a, fun h => ha (Nat.dvd_of_mod_eq_zero h)⟩]

/-- A batch axis or a layout of the wrong size is refused by every operation. -/
theorem C50_wrong_batch (hd : d = 1 ∨ d = 2 ∨ d = 3) (y : Tiled d K) (L : Fin d → ℕ) (pad : Fin d → ℕ × ℕ) (hb : y.batch ≠ ∏ a, L a) :
    batchToSpace y L = .error .runtime ∧ haloExchangePad y L pad = .error .value := by
  have hd' : tileRank d = true := by rcases hd with rfl | rfl | rfl <;> rfl
  have hb' : y.batch ≠ layoutSize L := by simpa [layoutSize, List.prod_ofFn] using hb
  constructor
  · unfold batchToSpace
    rw [if_neg (by simp [hd']), if_pos hb']
  · unfold haloExchangePad verifyLayout
    rw [if_pos hb']
    rfl

/-- **Tiling is invisible.**  Whatever the layout, `apply_convolution` of a convolution with valid boundary
conditions and window `pad_left + 1 + pad_right` has the shape of the input and computes the window
function at every position of the *periodic* array, the window starting `pad_left` before it. -/
theorem C50_apply_convolution (hd : d = 1 ∨ d = 2 ∨ d = 3) {k : Fin d → ℕ} {cout : ℕ} {F : (Idx d → ℤ → K) → ℤ → K}
    {conv : Tiled d K → Except Err (Tiled d K)} (x : Chan d K) (hx : ∀ a, 0 < x.shape a) (hc : ValidConv k x.chan cout F conv)
    (pad : Fin d → ℕ × ℕ) (hk : ∀ a, k a = (pad a).1 + (pad a).2 + 1)
    (L : Fin d → ℕ) (hL : ∀ a, 0 < L a) (hdiv : ∀ a, L a ∣ x.shape a)
    (h1 : ∀ a, (pad a).1 ≤ x.shape a / L a) (h2 : ∀ a, (pad a).2 ≤ x.shape a / L a) :
    ∃ z : Chan d K, applyConvolution conv x (some L) pad = .ok z ∧ z.shape = x.shape ∧ z.chan = cout ∧
      ∀ (i : Idx d) (co : ℤ), InR x.shape i → 0 ≤ co → co < cout →
        z.data i co = F (fun o c => x.per (fun a => i a + o a - (pad a).1) c) co := by
  have hd' : tileRank d = true := by rcases hd with rfl | rfl | rfl <;> rfl
  exact applyConvolution_ok x hc (some L) pad hd' hx hL hdiv hk h1 h2

/-- The tiled result does not depend on the layout: it is the result with no layout at all. -/
theorem C50_layout_independent (hd : d = 1 ∨ d = 2 ∨ d = 3) {k : Fin d → ℕ} {cout : ℕ} {F : (Idx d → ℤ → K) → ℤ → K}
    {conv : Tiled d K → Except Err (Tiled d K)} (x : Chan d K) (hx : ∀ a, 0 < x.shape a) (hc : ValidConv k x.chan cout F conv)
    (pad : Fin d → ℕ × ℕ) (hk : ∀ a, k a = (pad a).1 + (pad a).2 + 1)
    (L : Fin d → ℕ) (hL : ∀ a, 0 < L a) (hdiv : ∀ a, L a ∣ x.shape a)
    (h1 : ∀ a, (pad a).1 ≤ x.shape a / L a) (h2 : ∀ a, (pad a).2 ≤ x.shape a / L a) :
    ∃ z z' : Chan d K, applyConvolution conv x (some L) pad = .ok z ∧ applyConvolution conv x none pad = .ok z' ∧ z.Eqv z' := by
  have hd' : tileRank d = true := by rcases hd with rfl | rfl | rfl <;> rfl
  obtain ⟨z, hz, zs, zc, zd⟩ := C50_apply_convolution hd x hx hc pad hk L hL hdiv h1 h2
  obtain ⟨z', hz', zs', zc', zd'⟩ := applyConvolution_ok x hc none pad hd' hx (fun _ => Nat.one_pos) (fun _ => one_dvd _) hk
    (fun a => (h1 a).trans (by simpa using Nat.div_le_self _ _)) (fun a => (h2 a).trans (by simpa using Nat.div_le_self _ _))
  refine ⟨z, z', hz, hz', zs.trans zs'.symm, zc.trans zc'.symm, ?_⟩
  intro i c hi c0 c1
  rw [zs] at hi
  rw [zc] at c1
  rw [zd i c hi c0 c1, zd' i c hi c0 c1]

/-- Periodic convolution commutes with cyclic translations of its input (there is no special boundary). -/
theorem C50_translation_equivariant (hd : d = 1 ∨ d = 2 ∨ d = 3) {k : Fin d → ℕ} {cout : ℕ} {F : (Idx d → ℤ → K) → ℤ → K}
    {conv : Tiled d K → Except Err (Tiled d K)} (x : Chan d K) (hx : ∀ a, 0 < x.shape a) (hc : ValidConv k x.chan cout F conv)
    (pad : Fin d → ℕ × ℕ) (hk : ∀ a, k a = (pad a).1 + (pad a).2 + 1)
    (L : Fin d → ℕ) (hL : ∀ a, 0 < L a) (hdiv : ∀ a, L a ∣ x.shape a)
    (h1 : ∀ a, (pad a).1 ≤ x.shape a / L a) (h2 : ∀ a, (pad a).2 ≤ x.shape a / L a) (s : Idx d) :
    ∃ z z' : Chan d K, applyConvolution conv x (some L) pad = .ok z ∧
      applyConvolution conv (x.translate s) (some L) pad = .ok z' ∧ z'.Eqv (z.translate s) := by
  obtain ⟨z, hz, zs, zc, zd⟩ := C50_apply_convolution hd x hx hc pad hk L hL hdiv h1 h2
  obtain ⟨z', hz', zs', zc', zd'⟩ := C50_apply_convolution hd (x.translate s) hx hc pad hk L hL hdiv h1 h2
  refine ⟨z, z', hz, hz', zs'.trans zs.symm, zc'.trans zc.symm, ?_⟩
  intro i c hi c0 c1
  rw [zs'] at hi
  rw [zc'] at c1
  rw [zd' i c hi c0 c1]
  unfold Chan.translate
  dsimp only
  unfold Chan.per
  dsimp only
  rw [zs, zd _ c _ c0 c1]
  · apply hc.window
    intro o c' _ _ _
    unfold Chan.per
    congr 1
    funext a
    dsimp only
    rw [Int.emod_add_emod, show (i a + s a) % (x.shape a : ℤ) + o a - ((pad a).1 : ℤ) = (i a + s a) % (x.shape a : ℤ) + (o a - (pad a).1) by ring,
      Int.emod_add_emod]
    congr 1
    ring
  · intro a
    have : (0 : ℤ) < x.shape a := by exact_mod_cast hx a
    exact ⟨Int.emod_nonneg _ this.ne', Int.emod_lt_of_pos _ this⟩

/-- The convolution of `lax.conv_general_dilated` is one with valid boundary conditions, its window
being the dilated kernel. -/
theorem C50_conv_valid [Semiring K] (k : Fin d → ℕ) (hk : ∀ a, 0 < k a) (cin cout : ℕ) (kernel : Idx d → ℤ → ℤ → K) (rate : ℕ) :
    ValidConv (fun a => (k a - 1) * rate + 1) cin cout
      (fun w co => ∑ o ∈ Fintype.piFinset fun a => Finset.range (k a), ∑ ci ∈ Finset.range cin,
        w (fun a => rate * (o a : ℕ)) ci * kernel (fun a => (o a : ℤ)) ci co)
      (convGeneralDilated k cin cout kernel rate) := by
  constructor
  · intro w w' h co
    apply Finset.sum_congr rfl
    intro o ho
    apply Finset.sum_congr rfl
    intro ci hci
    rw [Fintype.mem_piFinset] at ho
    rw [h _ _ _ (by omega) (by have := Finset.mem_range.1 hci; omega)]
    intro a
    have h1 : o a ≤ k a - 1 := by have := Finset.mem_range.1 (ho a); omega
    refine ⟨by positivity, ?_⟩
    have := Nat.mul_le_mul_left rate h1
    dsimp only
    rw [mul_comm (k a - 1)]
    exact_mod_cast Nat.lt_succ_of_le this
  · intro y hy _
    unfold convGeneralDilated
    rw [if_neg (by simpa using hy)]
    refine ⟨_, rfl, rfl, rfl, fun a => rfl, ?_⟩
    intro b j co _ _ _ _ _
    rfl

/-- Hence a tiled convolution with kernel `kernel` computes, at every point of the periodic array,
the sum over the kernel of `x[i + rate*o - pad_left] * kernel[o]`, over all input channels. -/
theorem C50_convolution [Semiring K] (hd : d = 1 ∨ d = 2 ∨ d = 3) (k : Fin d → ℕ) (hk : ∀ a, 0 < k a) (cout : ℕ)
    (kernel : Idx d → ℤ → ℤ → K) (rate : ℕ) (x : Chan d K) (hx : ∀ a, 0 < x.shape a)
    (pad : Fin d → ℕ × ℕ) (hp : ∀ a, (pad a).1 + (pad a).2 = (k a - 1) * rate)
    (L : Fin d → ℕ) (hL : ∀ a, 0 < L a) (hdiv : ∀ a, L a ∣ x.shape a)
    (h1 : ∀ a, (pad a).1 ≤ x.shape a / L a) (h2 : ∀ a, (pad a).2 ≤ x.shape a / L a) :
    ∃ z : Chan d K, applyConvolution (convGeneralDilated k x.chan cout kernel rate) x (some L) pad = .ok z ∧
      z.shape = x.shape ∧ z.chan = cout ∧
      ∀ (i : Idx d) (co : ℤ), InR x.shape i → 0 ≤ co → co < cout →
        z.data i co = ∑ o ∈ Fintype.piFinset fun a => Finset.range (k a), ∑ ci ∈ Finset.range x.chan,
          x.per (fun a => i a + rate * (o a : ℕ) - (pad a).1) ci * kernel (fun a => (o a : ℤ)) ci co :=
  C50_apply_convolution hd x hx (C50_conv_valid k hk x.chan cout kernel rate) pad (fun a => by rw [hp]) L hL hdiv h1 h2

/-- The hypotheses are met by a 4×6 array cut into 2×3 tiles, 3×3 kernel. -/
example : ∃ z : Chan 2 ℤ,
    applyConvolution (convGeneralDilated (fun _ => 3) 1 1 (fun o _ _ => o 0 - o 1) 1)
      { shape := ![4, 6], chan := 1, data := fun i _ => i 0 * 6 + i 1 } (some ![2, 3]) (fun _ => (1, 1)) = .ok z ∧
      z.shape = ![4, 6] := by
  obtain ⟨z, h, hs, -⟩ := C50_convolution (Or.inr (Or.inl rfl)) (fun _ => 3) (fun _ => by norm_num) 1 (fun o _ _ => o 0 - o 1) 1
    ({ shape := ![4, 6], chan := 1, data := fun i _ => i 0 * 6 + i 1 } : Chan 2 ℤ) (by intro a; fin_cases a <;> decide) (fun _ => (1, 1))
    (fun _ => rfl) ![2, 3] (by intro a; fin_cases a <;> decide) (by intro a; fin_cases a <;> decide) (by intro a; fin_cases a <;> decide)
    (by intro a; fin_cases a <;> decide)
  exact ⟨z, h, hs⟩

end JaxCfd
