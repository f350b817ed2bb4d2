import Verif.Model.PeriodicConv
import Verif.Props.Tiling
import Mathlib.Tactic.LinearCombination

/-!
# C50: the periodic convolution modules of `ml/layers.py`
-/

namespace JaxCfd
variable {d : ℕ} {K : Type}

theorem periodicConvPadding_sum {k rate : ℕ} (hk : 0 < k) (hr : 0 < rate) :
    (periodicConvPadding k rate).1 = ((k - 1) * rate + 1) / 2 ∧
    (periodicConvPadding k rate).1 + (periodicConvPadding k rate).2 = (k - 1) * rate := by
  have e : k + (rate - 1) * (k - 1) = (k - 1) * rate + 1 := by
    obtain ⟨k, rfl⟩ : ∃ j, k = j + 1 := ⟨k - 1, by omega⟩
    obtain ⟨rate, rfl⟩ : ∃ j, rate = j + 1 := ⟨rate - 1, by omega⟩
    simp only [Nat.add_sub_cancel]
    ring
  unfold periodicConvPadding
  dsimp only
  rw [e]
  generalize (k - 1) * rate = m
  omega

/-- A periodic convolution module applies its kernel, dilated by `rate`, to the window of the periodic
input that starts `⌈(k-1)*rate/2⌉` before each point, whatever the tile layout; the output has the shape
of the input. -/
theorem C50_periodic_conv [Semiring K] (hd : d = 1 ∨ d = 2 ∨ d = 3) (k : Fin d → ℕ) (hk : ∀ a, 0 < k a) (cout : ℕ)
    (w : Idx d → ℤ → ℤ → K) (b : ℤ → K) (rate : ℕ) (hr : 0 < rate) (x : Chan d K) (hx : ∀ a, 0 < x.shape a)
    (L : Fin d → ℕ) (hL : ∀ a, 0 < L a) (hdiv : ∀ a, L a ∣ x.shape a)
    (hpad : ∀ a, ((k a - 1) * rate + 1) / 2 ≤ x.shape a / L a) :
    ∃ z : Chan d K, periodicConv k x.chan cout w b rate (some L) x = .ok z ∧ z.shape = x.shape ∧ z.chan = cout ∧
      ∀ (i : Idx d) (co : ℤ), InR x.shape i → 0 ≤ co → co < cout →
        z.data i co = (∑ o ∈ Fintype.piFinset fun a => Finset.range (k a), ∑ ci ∈ Finset.range x.chan,
          x.per (fun a => i a + rate * (o a : ℕ) - (((k a - 1) * rate + 1) / 2 : ℕ)) ci * w (fun a => (o a : ℤ)) ci co) + b co := by
  have hv : ValidConv (fun a => (k a - 1) * rate + 1) x.chan cout
      (fun v co => (∑ o ∈ Fintype.piFinset fun a => Finset.range (k a), ∑ ci ∈ Finset.range x.chan,
        v (fun a => rate * (o a : ℕ)) ci * w (fun a => (o a : ℤ)) ci co) + b co)
      (hkConv k x.chan cout w b rate) := by
    have h := C50_conv_valid k hk x.chan cout w rate
    constructor
    · intro v v' hvv co
      rw [h.window v v' hvv co]
    · intro y hy hs
      obtain ⟨z, hz, zb, zc, zs, zd⟩ := h.apply y hy hs
      unfold hkConv
      rw [hz]
      refine ⟨_, rfl, zb, zc, zs, ?_⟩
      intro n j co n0 n1 hj c0 c1
      dsimp only
      rw [zd n j co n0 n1 hj c0 c1]
  have hp := fun a => periodicConvPadding_sum (hk a) hr
  obtain ⟨z, hz, zs, zc, zd⟩ := C50_apply_convolution hd x hx hv (fun a => periodicConvPadding (k a) rate)
    (fun a => by rw [(hp a).2]) L hL hdiv (fun a => by rw [(hp a).1]; exact hpad a)
    (fun a => by have := hp a; have := hpad a; generalize (k a - 1) * rate = m at *; omega)
  refine ⟨z, hz, zs, zc, ?_⟩
  intro i co hi c0 c1
  rw [zd i co hi c0 c1]
  simp only [(hp _).1]

/-- For odd kernels the window is centred: it reaches `rate*(k-1)/2` to either side. -/
theorem C50_periodic_conv_centred (h rate : ℕ) (hr : 0 < rate) :
    periodicConvPadding (2 * h + 1) rate = (h * rate, h * rate) := by
  obtain ⟨e1, e2⟩ := periodicConvPadding_sum (k := 2 * h + 1) (rate := rate) (by omega) hr
  have : (2 * h + 1 - 1) * rate = 2 * (h * rate) := by rw [Nat.add_sub_cancel]; ring
  rw [this] at e1 e2
  ext <;> simp only <;> omega

/-- A periodic transpose convolution enlarges every axis by the stride; output `t` collects the kernel
entries `w[o]` times the periodic input at `(t + o - k//2)/stride`, for those `o` where this is an
integer position: no boundary is visible. -/
theorem C50_periodic_conv_transpose [Semiring K] (hd : d = 1 ∨ d = 2 ∨ d = 3) (k : Fin d → ℕ) (hk : ∀ a, 0 < k a) (cout : ℕ)
    (w : Idx d → ℤ → ℤ → K) (b : ℤ → K) (s : ℕ) (hs : 0 < s) (x : Chan d K) (hx : ∀ a, k a / s + 1 ≤ x.shape a) :
    ∃ z : Chan d K, periodicConvTranspose k x.chan cout w b s none x = .ok z ∧ (∀ a, z.shape a = s * x.shape a) ∧ z.chan = cout ∧
      ∀ (t : Idx d) (co : ℤ), InR z.shape t → 0 ≤ co → co < cout →
        z.data t co = (∑ o ∈ Fintype.piFinset fun a => Finset.range (k a), ∑ ci ∈ Finset.range x.chan,
          (if ∀ a, (s : ℤ) ∣ t a + (o a : ℕ) - (k a / 2 : ℕ) then
            x.per (fun a => (t a + (o a : ℕ) - (k a / 2 : ℕ)) / (s : ℤ)) ci else 0) * w (fun a => (o a : ℤ)) ci co) + b co := by
  have hd' : tileRank d = true := by rcases hd with rfl | rfl | rfl <;> rfl
  have hx0 : ∀ a, 0 < x.shape a := fun a => lt_of_lt_of_le (Nat.succ_pos _) (hx a)
  unfold periodicConvTranspose applyConvolution
  rw [if_neg (by simp)]
  simp only [Option.getD_none]
  rw [spaceToBatch_ok hd' (fun _ => Nat.one_pos) (fun _ => one_dvd _)]
  simp only [bind, Except.bind, Nat.div_one]
  obtain ⟨v, hv, vb, vc, vs, vd⟩ := haloExchangePad_ok (L := fun _ : Fin d => 1)
    (y := { batch := layoutSize fun _ : Fin d => 1, shape := fun a => x.shape a, chan := x.chan, data := fun b j c => x.data (fun a => tileIdx (fun _ => 1) b a * (x.shape a : ℕ) + j a) c })
    hd' rfl (fun _ => Nat.one_pos) (fun a => convTransposePadding (k a) s) hx0 hx (fun a => Nat.zero_le _)
  rw [hv]
  dsimp only at vb vc vs vd ⊢
  unfold hkConvTranspose
  rw [if_neg (by simpa using vc)]
  dsimp only
  rw [batchToSpace_ok hd' (by exact vb)]
  dsimp only
  simp only [convTransposePadding, add_zero] at vs vd ⊢
  have vsa : ∀ a, v.shape a = k a / s + 1 + x.shape a := fun a => by rw [vs]
  simp only [vsa]
  have hsize : ∀ a, min (1 * ((k a / s + 1 + x.shape a) * s + (k a - s))) (s * (x.shape a + (k a / s + 1))) - s * (k a / s + 1) = s * x.shape a := by
    intro a
    rw [min_eq_right]
    · rw [mul_add]; omega
    · rw [one_mul, mul_comm s, show x.shape a + (k a / s + 1) = k a / s + 1 + x.shape a by ring]
      omega
  simp only [hsize]
  refine ⟨_, rfl, fun a => rfl, rfl, ?_⟩
  intro t co ht c0 c1
  dsimp only at ht ⊢
  have hspos : (0 : ℤ) < s := by exact_mod_cast hs
  -- the position in the padded output
  let u : Idx d := fun a => (t a + (((k a - 1) / 2 : ℕ) : ℤ)) % ((s * x.shape a : ℕ) : ℤ)
  have hu : ∀ a, 0 ≤ u a ∧ u a < s * x.shape a := by
    intro a
    have hp : (0 : ℤ) < ((s * x.shape a : ℕ) : ℤ) := by exact_mod_cast Nat.mul_pos hs (hx0 a)
    refine ⟨Int.emod_nonneg _ hp.ne', ?_⟩
    have := Int.emod_lt_of_pos (t a + (((k a - 1) / 2 : ℕ) : ℤ)) hp
    push_cast at this
    exact_mod_cast this
  have hI : ∀ a, 0 ≤ u a + ((s * (k a / s + 1) : ℕ) : ℤ) ∧ u a + ((s * (k a / s + 1) : ℕ) : ℤ) < ((k a / s + 1 + x.shape a) * s + (k a - s) : ℕ) := by
    intro a
    obtain ⟨u0, u1⟩ := hu a
    constructor
    · positivity
    · push_cast at u1 ⊢
      nlinarith [Int.natCast_nonneg (k a - s)]
  have e1 : ∀ a, (u a + ((s * (k a / s + 1) : ℕ) : ℤ)) / ((k a / s + 1 + x.shape a) * s + (k a - s) : ℕ) = 0 :=
    fun a => Int.ediv_eq_zero_of_lt (hI a).1 (hI a).2
  have e2 : ∀ a, (u a + ((s * (k a / s + 1) : ℕ) : ℤ)) % ((k a / s + 1 + x.shape a) * s + (k a - s) : ℕ) = u a + ((s * (k a / s + 1) : ℕ) : ℤ) :=
    fun a => Int.emod_eq_of_lt (hI a).1 (hI a).2
  simp only [u] at e1 e2
  simp only [e1, e2]
  congr 1
  apply Finset.sum_congr rfl
  intro o ho
  rw [Fintype.mem_piFinset] at ho
  apply Finset.sum_congr rfl
  intro ci hci
  congr 1
  have hk' : ∀ a, s * (k a / s) + k a % s = k a := fun a => Nat.div_add_mod (k a) s
  have hkm : ∀ a, k a % s < s := fun a => Nat.mod_lt _ hs
  -- divisibility is that of the unreduced position
  have hq : ∀ a, ∃ q : ℤ, u a + ((s * (k a / s + 1) : ℕ) : ℤ) + (o a : ℕ) - ((k a : ℤ) - 1) = (t a + (o a : ℕ) - (k a / 2 : ℕ)) + s * (x.shape a * q + (k a / s + 1 : ℕ)) := by
    intro a
    refine ⟨- ((t a + (((k a - 1) / 2 : ℕ) : ℤ)) / ((s * x.shape a : ℕ) : ℤ)), ?_⟩
    have := Int.ediv_mul_add_emod (t a + (((k a - 1) / 2 : ℕ) : ℤ)) ((s * x.shape a : ℕ) : ℤ)
    have h2 : ((k a - 1) / 2 : ℕ) + (k a / 2 : ℕ) + 1 = k a := by have := hk a; omega
    have h3 : (((k a - 1) / 2 : ℕ) : ℤ) + ((k a / 2 : ℕ) : ℤ) + 1 = (k a : ℤ) := by exact_mod_cast h2
    show (t a + (((k a - 1) / 2 : ℕ) : ℤ)) % ((s * x.shape a : ℕ) : ℤ) + _ + _ - _ = _
    generalize (t a + (((k a - 1) / 2 : ℕ) : ℤ)) / ((s * x.shape a : ℕ) : ℤ) = q at *
    generalize (t a + (((k a - 1) / 2 : ℕ) : ℤ)) % ((s * x.shape a : ℕ) : ℤ) = r at *
    rw [Nat.cast_mul] at this ⊢
    linear_combination this + h3
  choose q hq using hq
  have hdvd : ∀ a, ((s : ℤ) ∣ u a + ((s * (k a / s + 1) : ℕ) : ℤ) + (o a : ℕ) - ((k a : ℤ) - 1)) ↔ (s : ℤ) ∣ t a + (o a : ℕ) - (k a / 2 : ℕ) := by
    intro a
    rw [hq a]
    exact (Int.dvd_add_left (Dvd.intro _ rfl))
  have hquot : ∀ a, (u a + ((s * (k a / s + 1) : ℕ) : ℤ) + (o a : ℕ) - ((k a : ℤ) - 1)) / (s : ℤ) = (t a + (o a : ℕ) - (k a / 2 : ℕ)) / (s : ℤ) + (x.shape a * q a + (k a / s + 1 : ℕ)) := by
    intro a
    rw [hq a, Int.add_mul_ediv_left _ _ hspos.ne']
  have hrange : ∀ a, 0 ≤ (u a + ((s * (k a / s + 1) : ℕ) : ℤ) + (o a : ℕ) - ((k a : ℤ) - 1)) / (s : ℤ) ∧
      (u a + ((s * (k a / s + 1) : ℕ) : ℤ) + (o a : ℕ) - ((k a : ℤ) - 1)) / (s : ℤ) < (k a / s + 1 + x.shape a : ℕ) := by
    intro a
    obtain ⟨u0, u1⟩ := hu a
    have h1 := hk' a
    have h2 := hkm a
    have h3 := Finset.mem_range.1 (ho a)
    constructor
    · apply Int.ediv_nonneg _ hspos.le
      have : (s : ℤ) * ((k a / s : ℕ) : ℤ) + ((k a % s : ℕ) : ℤ) = k a := by exact_mod_cast h1
      have h2' : ((k a % s : ℕ) : ℤ) < s := by exact_mod_cast h2
      rw [Nat.cast_mul, Nat.cast_add, mul_add]
      simp only [Nat.cast_one, mul_one]
      have : (0 : ℤ) ≤ (o a : ℕ) := Int.natCast_nonneg _
      omega
    · apply Int.ediv_lt_of_lt_mul hspos
      have h3' : ((o a : ℕ) : ℤ) < k a := by exact_mod_cast h3
      rw [Nat.cast_mul, Nat.cast_add]
      rw [Nat.cast_add, add_mul]
      have := mul_comm (s : ℤ) (x.shape a : ℤ)
      have := mul_comm (s : ℤ) (((k a / s : ℕ) : ℤ) + ((1 : ℕ) : ℤ))
      have e : ((k a / s + 1 : ℕ) : ℤ) = ((k a / s : ℕ) : ℤ) + ((1 : ℕ) : ℤ) := Nat.cast_add _ _
      rw [e]
      omega
  by_cases hall : ∀ a, (s : ℤ) ∣ t a + (o a : ℕ) - (k a / 2 : ℕ)
  · rw [if_pos hall, if_pos (fun a => ⟨(hdvd a).2 (hall a), hrange a⟩)]
    have hz : InR (fun _ : Fin d => 1) (fun _ : Fin d => (0 : ℤ)) := fun a => by simp
    rw [vd (fun _ => 0) _ _ hz]
    · rw [tileIdx_tileNum]
      · unfold Chan.per
        congr 1
        funext a
        have := hquot a
        simp only [u] at this
        rw [Int.ediv_mul_add_emod, this]
        push_cast
        rw [one_mul, zero_mul, zero_add, show (t a + (o a : ℤ) - (k a : ℤ) / 2) / (s : ℤ) + ((x.shape a : ℤ) * q a + ((k a : ℤ) / s + 1)) - ((k a : ℤ) / s + 1)
          = (t a + (o a : ℤ) - (k a : ℤ) / 2) / (s : ℤ) + (x.shape a : ℤ) * q a by ring, Int.add_mul_emod_self_left]
      · intro a
        have hxp : (0 : ℤ) < ((1 * x.shape a : ℕ) : ℤ) := by rw [one_mul]; exact_mod_cast hx0 a
        have hxp' : (0 : ℤ) < (x.shape a : ℤ) := by exact_mod_cast hx0 a
        constructor
        · exact Int.ediv_nonneg (Int.emod_nonneg _ hxp.ne') hxp'.le
        · apply Int.ediv_lt_of_lt_mul hxp'
          have := Int.emod_lt_of_pos (0 * (x.shape a : ℤ) + ((u a + ((s * (k a / s + 1) : ℕ) : ℤ) + (o a : ℕ) - ((k a : ℤ) - 1)) / (s : ℤ) - ((k a / s + 1 : ℕ) : ℤ))) hxp
          simpa only [Nat.cast_mul, u] using this
    · intro a
      exact hrange a
  · rw [if_neg hall, if_neg]
    intro h
    exact hall fun a => (hdvd a).1 (h a).1

/-- Tiling of transpose convolutions is refused, and so are inputs smaller than the periodic padding
`k//stride + 1` they need. -/
theorem C50_conv_transpose_rejects [Semiring K] (hd : d = 1 ∨ d = 2 ∨ d = 3) (k : Fin d → ℕ) (cout : ℕ)
    (w : Idx d → ℤ → ℤ → K) (b : ℤ → K) (s : ℕ) (x : Chan d K) :
    (∀ L, periodicConvTranspose k x.chan cout w b s (some L) x = .error .notImplemented) ∧
    ((∀ a, 0 < x.shape a) → (∃ a, x.shape a < k a / s + 1) → periodicConvTranspose k x.chan cout w b s none x = .error .type) := by
  have hd' : tileRank d = true := by rcases hd with rfl | rfl | rfl <;> rfl
  constructor
  · intro L
    unfold periodicConvTranspose
    rw [if_pos (by simp)]
  · rintro hx ⟨a, ha⟩
    unfold periodicConvTranspose applyConvolution
    rw [if_neg (by simp)]
    simp only [Option.getD_none]
    rw [spaceToBatch_ok hd' (fun _ => Nat.one_pos) (fun _ => one_dvd _)]
    simp only [bind, Except.bind, Nat.div_one]
    rw [haloExchangePad_wide hd' (by rfl) (fun _ => Nat.one_pos) _ (by exact hx) ⟨a, Or.inl (by exact ha)⟩]

/-- Kernel of size 3 and stride 2 on an array with 5 entries. -/
example : ∃ z : Chan 1 ℤ, periodicConvTranspose (fun _ => 3) 1 1 (fun o _ _ => o 0 + 1) (fun _ => 0) 2 none
    { shape := fun _ => 5, chan := 1, data := fun i _ => i 0 } = .ok z ∧ z.shape 0 = 10 := by
  obtain ⟨z, h, hs, -⟩ := C50_periodic_conv_transpose (Or.inl rfl) (fun _ => 3) (fun _ => by norm_num) 1 (fun o _ _ => o 0 + 1)
    (fun _ => 0) 2 (by norm_num) ({ shape := fun _ => 5, chan := 1, data := fun i _ => i 0 } : Chan 1 ℤ) (fun _ => by norm_num)
  exact ⟨z, h, by rw [hs]; rfl⟩

end JaxCfd
