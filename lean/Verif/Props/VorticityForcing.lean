import Verif.Model.SpectralForcings
import Verif.Props.Encoders
import Verif.Props.Forcings

/-!
# C64: forcing in vorticity space
-/

namespace JaxCfd

/-- The shape of a vorticity with one channel on the grid. -/
def OneChannel (g : Grid 2 ℝ) (w : NArr 3 ℝ) : Prop := w.shape = ![g.shape 0, g.shape 1, 1]

theorem vorticityForcing_ok {g : Grid 2 ℝ} {forcing : ForcingFn 2} {w : NArr 3 ℝ} (hw : OneChannel g w) {f : Fin 2 → GridArray 2 ℝ}
    (hf : forcing (spectralVelocity g (rfftn (k := 1) ⟨g.shape, fun i => w.data ![i 0, i 1, 0]⟩)) = .ok f) (hs : ∀ a, (f a).shape = g.shape) :
    vorticityForcingFn g forcing w = .ok (irfftn (k := 1) (ML.curlSpectrum g (f 0).toNArr (f 1).toNArr)) := by
  have e0 : w.shape 0 = g.shape 0 := congrFun hw 0
  have e1 : w.shape 1 = g.shape 1 := congrFun hw 1
  have e2 : w.shape 2 = 1 := congrFun hw 2
  have es : (![w.shape 0, w.shape 1] : Fin 2 → ℕ) = g.shape := by
    funext b
    fin_cases b
    · exact e0
    · exact e1
  unfold vorticityForcingFn
  rw [if_neg (by rw [e2]; simp), es]
  dsimp only
  rw [if_neg (by rw [ML.rfftn_grid_shape (g := g) rfl]; simp), hf]
  simp only [Except.bind_ok]
  have h0 : (rfftn (k := 1) (f 0).toNArr).shape = rfftShape2 g := ML.rfftn_grid_shape (hs 0)
  have h1 : (rfftn (k := 1) (f 1).toNArr).shape = rfftShape2 g := ML.rfftn_grid_shape (hs 1)
  rw [if_neg (by rw [h0, h1]; simp)]
  refine congrArg Except.ok (congrArg _ ?_)
  unfold ML.curlSpectrum spectralCurl2d
  congr 1
  funext i
  beta_reduce
  rw [ML.eta2]

theorem curl_field {g : Grid 2 ℝ} (hg : g.Proper) (he : g.shape 1 % 2 = 0) {u v : NArr 2 ℝ} (hu : u.shape = g.shape) (hv : v.shape = g.shape)
    (hun : ML.NyquistFree g u) (hvn : ML.NyquistFree g v) : (irfftn (k := 1) (ML.curlSpectrum g u v)).shape = g.shape ∧
      ∀ r c : ℤ, 0 ≤ r → r < g.shape 0 → 0 ≤ c → c ≤ (g.shape 1 / 2 : ℕ) →
        (rfftn (k := 1) (irfftn (k := 1) (ML.curlSpectrum g u v))).data ![r, c] =
          Complex.I * waveX g (centred (g.shape 0) r, c) * (rfftn (k := 1) v).data ![r, c] -
          Complex.I * waveY g (centred (g.shape 0) r, c) * (rfftn (k := 1) u).data ![r, c] := by
  have hh := (ML.curl_half hg he hu hv hun hvn).field he (hg 1).1
  refine ⟨hh.1, fun r c h0 h1 h2 h3 => ?_⟩
  have hmem : InR (rfftShape2 g) ![r, c] := ML.half_mem.2 ⟨⟨h0, h1⟩, h2, h3⟩
  have hmem' : InR (rfftn (k := 1) (irfftn (k := 1) (ML.curlSpectrum g u v))).shape ![r, c] := by
    rw [hh.2.1]
    exact hmem
  rw [hh.2.2 ![r, c] hmem']
  show spectralCurl2d g (fun r c => ((rfftn (k := 1) u).data ![r, c], (rfftn (k := 1) v).data ![r, c])) r c = _
  unfold spectralCurl2d
  rw [← deriv_x hg r c h0 h1, ← deriv_y hg r c]
  ring

/-- **C64.** `vorticity_space_forcing` applied to a vorticity on the grid: the given velocity forcing is evaluated at the velocity of that
vorticity, and the result is the curl of what it returns: a real field on the grid with spectrum `i kx f̂v - i ky f̂u` (for every forcing whose
components are on the grid and have no Nyquist frequencies) and mean zero. -/
theorem C64_vorticity_forcing {g : Grid 2 ℝ} (hg : g.Proper) (he : g.shape 1 % 2 = 0) (forcing : ForcingFn 2) (w : NArr 3 ℝ) (hw : OneChannel g w)
    (f : Fin 2 → GridArray 2 ℝ) (hf : forcing (spectralVelocity g (rfftn (k := 1) ⟨g.shape, fun i => w.data ![i 0, i 1, 0]⟩)) = .ok f)
    (hs : ∀ a, (f a).shape = g.shape) (hn : ∀ a, ML.NyquistFree g (f a).toNArr) :
    ∃ y, vorticityForcingFn g forcing w = .ok y ∧ y.shape = g.shape ∧ ∑ i ∈ box g.shape, y.data i = 0 ∧
      ∀ r c : ℤ, 0 ≤ r → r < g.shape 0 → 0 ≤ c → c ≤ (g.shape 1 / 2 : ℕ) →
        (rfftn (k := 1) y).data ![r, c] = Complex.I * waveX g (centred (g.shape 0) r, c) * (rfftn (k := 1) (f 1).toNArr).data ![r, c] -
          Complex.I * waveY g (centred (g.shape 0) r, c) * (rfftn (k := 1) (f 0).toNArr).data ![r, c] := by
  obtain ⟨hsh, hmode⟩ := curl_field hg he (hs 0) (hs 1) (hn 0) (hn 1)
  refine ⟨_, vorticityForcing_ok hw hf hs, hsh, ?_, hmode⟩
  have h0 := hmode 0 0 le_rfl (by have := (hg 0).1; omega) le_rfl (by omega)
  have hc : centred (g.shape 0) 0 = 0 := (centred_eq_zero le_rfl (by have := (hg 0).1; omega)).2 rfl
  rw [hc] at h0
  have w1 : waveX g (0, 0) = 0 := by simp [waveX]
  have w2 : waveY g (0, 0) = 0 := by simp [waveY]
  rw [w1, w2, ML.zero2, ML.rfftn_mean, hsh] at h0
  simp only [Complex.ofReal_zero, mul_zero, zero_mul, sub_zero] at h0
  exact_mod_cast h0

/-! ### Single waves -/

/-- A real field that is one wave: `c exp(i p·j) + c̄ exp(-i p·j)`. -/
def IsWave (g : Grid 2 ℝ) (p : ℤ × ℤ) (c : ℂ) (x : NArr 2 ℝ) : Prop :=
  x.shape = g.shape ∧ ∀ j ∈ points (g.shape 0) (g.shape 1), (x.data ![j.1, j.2] : ℂ) =
    c * wave2 (g.shape 0) (g.shape 1) p j + (starRingEnd ℂ) c * wave2 (g.shape 0) (g.shape 1) (-p) j

theorem IsWave.rfftn {g : Grid 2 ℝ} (hg : g.Proper) {p : ℤ × ℤ} {c : ℂ} {x : NArr 2 ℝ} (h : IsWave g p c x) (r s : ℤ) :
    (JaxCfd.rfftn (k := 1) x).data ![r, s] = c * (if (g.shape 0 : ℤ) ∣ p.1 - r ∧ (g.shape 1 : ℤ) ∣ p.2 - s then (g.shape 0 : ℂ) * g.shape 1 else 0) +
      (starRingEnd ℂ) c * (if (g.shape 0 : ℤ) ∣ -p.1 - r ∧ (g.shape 1 : ℤ) ∣ -p.2 - s then (g.shape 0 : ℂ) * g.shape 1 else 0) := by
  have hsh : x.shape = ![g.shape 0, g.shape 1] := by
    rw [h.1]
    funext b
    fin_cases b <;> rfl
  rw [rfftn2 hsh]
  have e : ∀ j ∈ points (g.shape 0) (g.shape 1), (x.data ![j.1, j.2] : ℂ) * (starRingEnd ℂ) (wave2 (g.shape 0) (g.shape 1) ((![r, s] : Idx 2) 0, (![r, s] : Idx 2) 1) j) =
      c * wave2 (g.shape 0) (g.shape 1) (p + -(r, s)) j + (starRingEnd ℂ) c * wave2 (g.shape 0) (g.shape 1) (-p + -(r, s)) j := fun j hj => by
    rw [h.2 j hj, wave2_add, wave2_add, wave2_neg _ _ (r, s)]
    show _ * (starRingEnd ℂ) (wave2 (g.shape 0) (g.shape 1) (r, s) j) = _
    ring
  rw [Finset.sum_congr rfl e, Finset.sum_add_distrib, ← Finset.mul_sum, ← Finset.mul_sum, sum_wave2 (hg 0).1 (hg 1).1, sum_wave2 (hg 0).1 (hg 1).1]
  rfl

/-- The curl of waves is the wave with the coefficients of the derivative. -/
theorem IsWave.curl {g : Grid 2 ℝ} (hg : g.Proper) (he : g.shape 1 % 2 = 0) {p : ℤ × ℤ} (hp0 : 2 * |p.1| < g.shape 0) (hp1 : 2 * |p.2| < g.shape 1)
    {a b : ℂ} {u v ω : NArr 2 ℝ} (hu : IsWave g p a u) (hv : IsWave g p b v) (hω : IsWave g p (Complex.I * waveX g p * b - Complex.I * waveY g p * a) ω) :
    (irfftn (k := 1) (ML.curlSpectrum g u v)).Eqv ω := by
  refine ML.irfftn_recover he hω.1 rfl fun i hi => ?_
  obtain ⟨⟨h0, h1⟩, h2, h3⟩ := ML.half_mem.1 hi
  rw [← ML.eta2 i]
  generalize i 0 = r at h0 h1
  generalize i 1 = s at h2 h3
  have hx0 := abs_lt.1 (show |p.1| < (g.shape 0 : ℤ) by omega)
  have key : ∀ q : ℤ × ℤ, |q.1| = |p.1| → |q.2| = |p.2| → (g.shape 0 : ℤ) ∣ q.1 - r → (g.shape 1 : ℤ) ∣ q.2 - s → (centred (g.shape 0) r, s) = q := by
    intro q e1 e2 d1 d2
    have hb := centred_bounds (hg 0).1 r
    have hN := (hg 0).1
    have hM := (hg 1).1
    have a1 := abs_lt.1 (show |2 * q.1| < (g.shape 0 : ℤ) by rw [abs_mul, e1]; simpa using hp0)
    have a2 := abs_lt.1 (show |2 * q.2| < (g.shape 1 : ℤ) by rw [abs_mul, e2]; simpa using hp1)
    have c1 : centred (g.shape 0) r = q.1 := ML.centred_unique d1 (by omega) (by omega)
    have c2 : q.2 = s := by
      obtain ⟨t, ht⟩ := d2
      have b1 : (g.shape 1 : ℤ) * t < g.shape 1 * 1 := by omega
      have b2 : (g.shape 1 : ℤ) * (-1) < g.shape 1 * t := by omega
      have t1 := lt_of_mul_lt_mul_left b1 (by omega)
      have t2 := lt_of_mul_lt_mul_left b2 (by omega)
      have : t = 0 := by omega
      rw [this, mul_zero] at ht
      omega
    exact Prod.ext c1 c2.symm
  show spectralCurl2d g (fun r c => ((JaxCfd.rfftn (k := 1) u).data ![r, c], (JaxCfd.rfftn (k := 1) v).data ![r, c])) r s = _
  unfold spectralCurl2d
  dsimp only
  have e : twoPiI * ((JaxCfd.rfftn (k := 1) v).data ![r, s] * ((rfftMesh g r s).1 : ℝ) - (JaxCfd.rfftn (k := 1) u).data ![r, s] * ((rfftMesh g r s).2 : ℝ)) =
      Complex.I * waveX g (centred (g.shape 0) r, s) * (JaxCfd.rfftn (k := 1) v).data ![r, s] -
        Complex.I * waveY g (centred (g.shape 0) r, s) * (JaxCfd.rfftn (k := 1) u).data ![r, s] := by
    rw [← deriv_x hg r s h0 h1, ← deriv_y hg r s]
    ring
  rw [e, hu.rfftn hg, hv.rfftn hg, hω.rfftn hg]
  have hcj : (starRingEnd ℂ) (Complex.I * waveX g p * b - Complex.I * waveY g p * a) =
      Complex.I * waveX g (-p) * (starRingEnd ℂ) b - Complex.I * waveY g (-p) * (starRingEnd ℂ) a := by
    rw [map_sub, map_mul, map_mul (starRingEnd ℂ) (Complex.I * _), ← mulX_conj, ← mulY_conj]
  rw [hcj]
  have c1 : ∀ z : ℂ, (waveX g (centred (g.shape 0) r, s) : ℂ) * (if (g.shape 0 : ℤ) ∣ p.1 - r ∧ (g.shape 1 : ℤ) ∣ p.2 - s then z else 0) =
      waveX g p * (if (g.shape 0 : ℤ) ∣ p.1 - r ∧ (g.shape 1 : ℤ) ∣ p.2 - s then z else 0) := fun z => by
    split_ifs with h
    · rw [key p rfl rfl h.1 h.2]
    · simp
  have c2 : ∀ z : ℂ, (waveY g (centred (g.shape 0) r, s) : ℂ) * (if (g.shape 0 : ℤ) ∣ p.1 - r ∧ (g.shape 1 : ℤ) ∣ p.2 - s then z else 0) =
      waveY g p * (if (g.shape 0 : ℤ) ∣ p.1 - r ∧ (g.shape 1 : ℤ) ∣ p.2 - s then z else 0) := fun z => by
    split_ifs with h
    · rw [key p rfl rfl h.1 h.2]
    · simp
  have c3 : ∀ z : ℂ, (waveX g (centred (g.shape 0) r, s) : ℂ) * (if (g.shape 0 : ℤ) ∣ -p.1 - r ∧ (g.shape 1 : ℤ) ∣ -p.2 - s then z else 0) =
      waveX g (-p) * (if (g.shape 0 : ℤ) ∣ -p.1 - r ∧ (g.shape 1 : ℤ) ∣ -p.2 - s then z else 0) := fun z => by
    split_ifs with h
    · rw [key (-p) (abs_neg _) (abs_neg _) h.1 h.2]
    · simp
  have c4 : ∀ z : ℂ, (waveY g (centred (g.shape 0) r, s) : ℂ) * (if (g.shape 0 : ℤ) ∣ -p.1 - r ∧ (g.shape 1 : ℤ) ∣ -p.2 - s then z else 0) =
      waveY g (-p) * (if (g.shape 0 : ℤ) ∣ -p.1 - r ∧ (g.shape 1 : ℤ) ∣ -p.2 - s then z else 0) := fun z => by
    split_ifs with h
    · rw [key (-p) (abs_neg _) (abs_neg _) h.1 h.2]
    · simp
  have k1 := c1 ((g.shape 0 : ℂ) * g.shape 1)
  have k2 := c2 ((g.shape 0 : ℂ) * g.shape 1)
  have k3 := c3 ((g.shape 0 : ℂ) * g.shape 1)
  have k4 := c4 ((g.shape 0 : ℂ) * g.shape 1)
  linear_combination Complex.I * b * k1 - Complex.I * a * k2 + Complex.I * (starRingEnd ℂ) b * k3 - Complex.I * (starRingEnd ℂ) a * k4

/-- The unit wavevectors. -/
def axisWave (a : Fin 2) (q : ℤ) : ℤ × ℤ := if a = 0 then (q, 0) else (0, q)

theorem axis_wave {g : Grid 2 ℝ} (hg : g.Proper) (a : Fin 2) (k : ℝ) (q : ℤ) (hk : k * ((g.domain a).2 - (g.domain a).1) = 2 * Real.pi * q) (i : Idx 2) :
    Complex.exp (k * (((g.domain a).1 + i a * g.step a : ℝ) : ℂ) * Complex.I) =
      Complex.exp (k * (g.domain a).1 * Complex.I) * wave2 (g.shape 0) (g.shape 1) (axisWave a q) (i 0, i 1) := by
  have hw : wave2 (g.shape 0) (g.shape 1) (axisWave a q) (i 0, i 1) = wave (g.shape a) q (i a) := by
    unfold wave2 axisWave
    fin_cases a
    · simp [wave_zero]
    · simp [wave_zero]
  have hN : (g.shape a : ℂ) ≠ 0 := by exact_mod_cast (hg a).1
  rw [hw]
  unfold wave
  rw [← Complex.exp_add]
  congr 1
  have hk' : (k : ℂ) * ((g.domain a).2 - (g.domain a).1) = 2 * Real.pi * q := by exact_mod_cast hk
  have hst : (g.step a : ℂ) = ((g.domain a).2 - (g.domain a).1) / g.shape a := by
    unfold Grid.step
    push_cast
    rfl
  push_cast
  rw [hst]
  field_simp
  linear_combination (i a : ℂ) * hk'

theorem sin_isWave {g : Grid 2 ℝ} (hg : g.Proper) (a : Fin 2) (scale k : ℝ) (q : ℤ) (hk : k * ((g.domain a).2 - (g.domain a).1) = 2 * Real.pi * q) {x : NArr 2 ℝ}
    (hx : x.shape = g.shape) (hd : ∀ i : Idx 2, InR g.shape i → x.data i = scale * Real.sin (k * ((g.domain a).1 + i a * g.step a))) :
    IsWave g (axisWave a q) (-(Complex.I / 2 * scale * Complex.exp (k * (g.domain a).1 * Complex.I))) x := by
  refine ⟨hx, fun j hj => ?_⟩
  unfold points at hj
  rw [Finset.mem_product, Finset.mem_Ico, Finset.mem_Ico] at hj
  have hin : InR g.shape ![j.1, j.2] := fun b => by fin_cases b <;> [exact hj.1; exact hj.2]
  rw [hd _ hin, wave2_neg]
  have e := axis_wave hg a k q hk ![j.1, j.2]
  have e' := congrArg (starRingEnd ℂ) e
  rw [map_mul] at e'
  have hre : ∀ y : ℝ, (starRingEnd ℂ) (Complex.exp (k * (y : ℂ) * Complex.I)) = Complex.exp (-(k * (y : ℂ) * Complex.I)) := fun y => by
    rw [← Complex.exp_conj]
    congr 1
    simp
  rw [hre, hre] at e'
  have hc : (starRingEnd ℂ) (-(Complex.I / 2 * scale * Complex.exp (k * (g.domain a).1 * Complex.I))) =
      Complex.I / 2 * scale * Complex.exp (-(k * (g.domain a).1 * Complex.I)) := by
    rw [map_neg, map_mul, hre, map_mul, map_div₀, Complex.conj_I, Complex.conj_ofReal, map_ofNat]
    ring
  rw [hc]
  change _ = _ * wave2 (g.shape 0) (g.shape 1) (axisWave a q) ((![j.1, j.2] : Idx 2) 0, (![j.1, j.2] : Idx 2) 1) +
    _ * (starRingEnd ℂ) (wave2 (g.shape 0) (g.shape 1) (axisWave a q) ((![j.1, j.2] : Idx 2) 0, (![j.1, j.2] : Idx 2) 1))
  have hs : ∀ z : ℂ, Complex.sin z = (Complex.exp (-(z * Complex.I)) - Complex.exp (z * Complex.I)) * Complex.I / 2 := fun z => by
    rw [Complex.sin, neg_mul]
  push_cast
  rw [hs]
  push_cast at e e'
  rw [e, e']
  ring

theorem cos_isWave {g : Grid 2 ℝ} (hg : g.Proper) (a : Fin 2) (scale k : ℝ) (q : ℤ) (hk : k * ((g.domain a).2 - (g.domain a).1) = 2 * Real.pi * q) :
    IsWave g (axisWave a q) (1 / 2 * scale * Complex.exp (k * (g.domain a).1 * Complex.I))
      ⟨g.shape, fun i => scale * Real.cos (k * ((g.domain a).1 + i a * g.step a))⟩ := by
  refine ⟨rfl, fun j hj => ?_⟩
  dsimp only
  rw [wave2_neg]
  have e := axis_wave hg a k q hk ![j.1, j.2]
  have e' := congrArg (starRingEnd ℂ) e
  rw [map_mul] at e'
  have hre : ∀ y : ℝ, (starRingEnd ℂ) (Complex.exp (k * (y : ℂ) * Complex.I)) = Complex.exp (-(k * (y : ℂ) * Complex.I)) := fun y => by
    rw [← Complex.exp_conj]
    congr 1
    simp
  rw [hre, hre] at e'
  have hc : (starRingEnd ℂ) (1 / 2 * scale * Complex.exp (k * (g.domain a).1 * Complex.I)) =
      1 / 2 * scale * Complex.exp (-(k * (g.domain a).1 * Complex.I)) := by
    rw [map_mul, hre, map_mul, map_div₀, Complex.conj_ofReal, map_ofNat, map_one]
  rw [hc]
  change _ = _ * wave2 (g.shape 0) (g.shape 1) (axisWave a q) ((![j.1, j.2] : Idx 2) 0, (![j.1, j.2] : Idx 2) 1) +
    _ * (starRingEnd ℂ) (wave2 (g.shape 0) (g.shape 1) (axisWave a q) ((![j.1, j.2] : Idx 2) 0, (![j.1, j.2] : Idx 2) 1))
  have hs : ∀ z : ℂ, Complex.cos z = (Complex.exp (z * Complex.I) + Complex.exp (-(z * Complex.I))) / 2 := fun z => by
    rw [Complex.cos, neg_mul]
  push_cast
  rw [hs]
  push_cast at e e'
  rw [e, e']
  ring

theorem zero_isWave {g : Grid 2 ℝ} (p : ℤ × ℤ) {x : NArr 2 ℝ} (hx : x.shape = g.shape) (h : ∀ i, x.data i = 0) : IsWave g p 0 x :=
  ⟨hx, fun j _ => by rw [h]; simp⟩

/-- The forcing with all offsets zero. -/
theorem kolmogorov_zero_offsets (g : Grid 2 ℝ) (scale k : ℝ) (swap : Bool) :
    ∃ F, mlKolmogorovForcing g scale k 0 swap (some fun _ _ => 0) = .ok F ∧ ∃ f, (∀ v, F v = .ok f) ∧ (∀ a, (f a).shape = g.shape) ∧
      (f (if swap then 1 else 0)).offset = (fun _ => 0) ∧ (f (if swap then 0 else 1)).offset = g.cellFaces (if swap then 0 else 1) ∧
      (∀ i, (f (if swap then 0 else 1)).data i = 0) ∧
      ∀ i : Idx 2, InR g.shape i → (f (if swap then 1 else 0)).data i =
        scale * Real.sin (k * ((g.domain (if swap then 0 else 1)).1 + i (if swap then 0 else 1) * g.step (if swap then 0 else 1))) := by
  unfold mlKolmogorovForcing kolmogorovForcing
  rw [dif_neg (by omega)]
  dsimp only
  obtain ⟨u, hu, ho, hg, hs, hd⟩ := sineArray_ok g scale k ((some fun _ _ => 0 : Option (Fin 2 → Fin 2 → ℚ)).getD g.cellFaces
    ⟨if swap then 1 else 0, by split <;> omega⟩) ⟨if swap then 0 else 1, by split <;> omega⟩
  rw [hu]
  simp only [Except.bind_ok]
  rw [if_neg (by omega)]
  refine ⟨_, congrArg Except.ok (if_neg (by simp)), _, fun v => rfl, fun a => ?_, ?_, ?_, fun i => ?_, fun i hi => ?_⟩
  · have hap : ∀ (P : Prop) [Decidable P] (x y : GridArray 2 ℝ), x.shape = g.shape → y.shape = g.shape → (if P then x else y).shape = g.shape :=
      fun P _ x y h1 h2 => by split_ifs <;> assumption
    exact hap _ _ _ hs hs
  · cases swap <;> exact ho
  · cases swap <;> rfl
  · cases swap <;> rfl
  · have := hd i hi
    unfold coord at this
    rw [ho, hg] at this
    cases swap <;> simpa using this

/-- **C64.** Kolmogorov forcing in vorticity space.  On every grid on which `k` is a resolved wavenumber of the axis along which the forcing
varies, `vorticity_space_forcing` with `kolmogorov_forcing` gives, for every vorticity on the grid, exactly the curl of `scale sin(k y) e_x`,
namely `-scale k cos(k y)` at the grid points (`+scale k cos(k x)` with swapped axes). -/
theorem C64_kolmogorov_vorticity {g : Grid 2 ℝ} (hg : g.Proper) (he : g.shape 1 % 2 = 0) (scale k : ℝ) (swap : Bool) (q : ℤ)
    (hk : k * ((g.domain (if swap then 0 else 1)).2 - (g.domain (if swap then 0 else 1)).1) = 2 * Real.pi * q)
    (hq : 2 * |q| < g.shape (if swap then 0 else 1)) :
    ∃ F, vorticitySpaceForcing g (fun g o => mlKolmogorovForcing g scale k 0 swap o) = .ok F ∧
      ∀ w, OneChannel g w → ∃ y, F w = .ok y ∧ y.shape = g.shape ∧ ∀ i : Idx 2, InR g.shape i →
        y.data i = (if swap then 1 else -1) * scale * k *
          Real.cos (k * ((g.domain (if swap then 0 else 1)).1 + i (if swap then 0 else 1) * g.step (if swap then 0 else 1))) := by
  obtain ⟨F, hF, f, hf, hs, -, -, hz, hd⟩ := kolmogorov_zero_offsets g scale k swap
  refine ⟨vorticityForcingFn g F, ?_, fun w hw => ?_⟩
  · unfold vorticitySpaceForcing
    beta_reduce
    rw [hF]
    rfl
  have hN0 := (hg 0).1
  have hM0 := (hg 1).1
  cases swap with
  | false =>
    simp only [Bool.false_eq_true, if_false] at hk hq hz hd ⊢
    have hu := sin_isWave hg 1 scale k q hk (hs 0) hd
    have hv := zero_isWave (g := g) (axisWave 1 q) (hs 1) hz
    have hω := cos_isWave hg 1 (-1 * scale * k) k q hk
    have hL : waveY g (axisWave 1 q) = k := by
      have hpos := sub_pos.2 (hg 1).2
      unfold waveY axisWave
      rw [if_neg (by decide)]
      dsimp only
      rw [← hk]
      field_simp
    have hcurl := IsWave.curl hg he (p := axisWave 1 q) (by simp [axisWave]; omega) (by simpa [axisWave] using hq) hu hv (ω := ⟨g.shape, fun i => -1 * scale * k * Real.cos (k * ((g.domain 1).1 + i 1 * g.step 1))⟩) (by
      have e : Complex.I * waveX g (axisWave 1 q) * 0 - Complex.I * waveY g (axisWave 1 q) * -(Complex.I / 2 * scale * Complex.exp (k * (g.domain 1).1 * Complex.I)) =
          1 / 2 * ((-1 * scale * k : ℝ) : ℂ) * Complex.exp (k * (g.domain 1).1 * Complex.I) := by
        rw [hL]
        push_cast
        linear_combination (1 / 2 * (k : ℂ) * scale * Complex.exp (k * (g.domain 1).1 * Complex.I)) * Complex.I_sq
      rw [e]
      exact hω)
    exact ⟨_, vorticityForcing_ok hw (hf _) hs, hcurl.1, fun i hi => hcurl.2 i (by rw [hcurl.1]; exact hi)⟩
  | true =>
    simp only [if_true] at hk hq hz hd ⊢
    have hv := sin_isWave hg 0 scale k q hk (hs 1) hd
    have hu := zero_isWave (g := g) (axisWave 0 q) (hs 0) hz
    have hω := cos_isWave hg 0 (1 * scale * k) k q hk
    have hL : waveX g (axisWave 0 q) = k := by
      have hpos := sub_pos.2 (hg 0).2
      unfold waveX axisWave
      rw [if_pos rfl]
      dsimp only
      rw [← hk]
      field_simp
    have hcurl := IsWave.curl hg he (p := axisWave 0 q) (by simpa [axisWave] using hq) (by simp [axisWave]; omega) hu hv (ω := ⟨g.shape, fun i => 1 * scale * k * Real.cos (k * ((g.domain 0).1 + i 0 * g.step 0))⟩) (by
      have e : Complex.I * waveX g (axisWave 0 q) * -(Complex.I / 2 * scale * Complex.exp (k * (g.domain 0).1 * Complex.I)) - Complex.I * waveY g (axisWave 0 q) * 0 =
          1 / 2 * ((1 * scale * k : ℝ) : ℂ) * Complex.exp (k * (g.domain 0).1 * Complex.I) := by
        rw [hL]
        push_cast
        linear_combination (-(1 / 2) * (k : ℂ) * scale * Complex.exp (k * (g.domain 0).1 * Complex.I)) * Complex.I_sq
      rw [e]
      exact hω)
    exact ⟨_, vorticityForcing_ok hw (hf _) hs, hcurl.1, fun i hi => hcurl.2 i (by rw [hcurl.1]; exact hi)⟩

/-- The finding: `vorticity_space_forcing` with `kolmogorov_forcing` and a nonzero linear coefficient fails for every vorticity.  The zero
component of the constant forcing carries the offset of the cell face although offset `(0, 0)` was asked for, so that adding the linear forcing
of the velocity at offset `(0, 0)` is rejected. -/
theorem C64_linear_coefficient_defect {g : Grid 2 ℝ} (he : g.shape 1 % 2 = 0) (scale k c : ℝ) (hc : c ≠ 0) (swap : Bool) :
    ∃ F, vorticitySpaceForcing g (fun g o => mlKolmogorovForcing g scale k c swap o) = .ok F ∧
      ∀ w, OneChannel g w → F w = .error .value := by
  obtain ⟨F₀, hF₀, f, hf, hs, -, ho, -⟩ := kolmogorov_zero_offsets g scale k swap
  have hK : ∃ K, kolmogorovForcing g scale k swap (some fun _ _ => 0) = .ok K ∧ K = F₀ := by
    unfold mlKolmogorovForcing at hF₀
    obtain ⟨K, hK, h2⟩ := Except.bind_eq_ok.1 hF₀
    exact ⟨K, hK, by rw [if_neg (by simp)] at h2; exact Except.ok.inj h2⟩
  obtain ⟨K, hK, rfl⟩ := hK
  have hF : mlKolmogorovForcing g scale k c swap (some fun _ _ => 0) = .ok (sumForcings [K, linearForcing c]) := by
    unfold mlKolmogorovForcing
    rw [hK]
    simp only [Except.bind_ok]
    rw [if_pos hc]
    rfl
  refine ⟨vorticityForcingFn g (sumForcings [K, linearForcing c]), ?_, fun w hw => ?_⟩
  · unfold vorticitySpaceForcing
    beta_reduce
    rw [hF]
    rfl
  have e0 : w.shape 0 = g.shape 0 := congrFun hw 0
  have e1 : w.shape 1 = g.shape 1 := congrFun hw 1
  have e2 : w.shape 2 = 1 := congrFun hw 2
  have es : (![w.shape 0, w.shape 1] : Fin 2 → ℕ) = g.shape := by
    funext b
    fin_cases b
    · exact e0
    · exact e1
  unfold vorticityForcingFn
  rw [if_neg (by rw [e2]; simp), es]
  dsimp only
  have hsh := ML.rfftn_grid_shape (g := g) (u := ⟨g.shape, fun i => w.data ![i 0, i 1, 0]⟩) rfl
  rw [if_neg (by rw [hsh]; simp)]
  obtain ⟨l, hl, hlv⟩ := C49_linear c (spectralVelocity g (rfftn (k := 1) ⟨g.shape, fun i => w.data ![i 0, i 1, 0]⟩))
  have hvs : ∀ a, (l a).shape = g.shape := fun a => by
    rw [(hlv a).2.2.1]
    have hs2 : ∀ z : NArr 2 ℂ, z.shape = rfftShape2 g → (irfftn (k := 1) z).shape = g.shape := fun z hz =>
      (irfftn2_shape he hz).trans (by funext b; fin_cases b <;> rfl)
    fin_cases a
    · exact hs2 _ hsh
    · exact hs2 _ hsh
  have hvo : ∀ a, (l a).offset = fun _ => 0 := fun a => by
    rw [(hlv a).1]
    fin_cases a <;> rfl
  rw [C49_sum_rejects K (linearForcing c) _ f l (hf _) hl (fun a => (hs a).trans (hvs a).symm) (if swap then 0 else 1) (Or.inl fun h => by
    rw [ho, hvo] at h
    have := congrFun h (if swap then 0 else 1)
    cases swap <;> simp [Grid.cellFaces] at this)]
  rfl

/-- Non-vacuity: the 4 × 4 grid of the unit square, forcing `sin(2π y)`. -/
example : ∃ F, vorticitySpaceForcing ML.unitGrid4 (fun g o => mlKolmogorovForcing g 1 (2 * Real.pi) 0 false o) = .ok F :=
  (C64_kolmogorov_vorticity ML.unitGrid4_proper (by norm_num [ML.unitGrid4]) 1 (2 * Real.pi) false 1 (by norm_num [ML.unitGrid4]) (by norm_num [ML.unitGrid4])).imp fun _ h => h.1

end JaxCfd
