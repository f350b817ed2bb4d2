import Verif.Model.SpectralForcings
import Verif.Props.SpectralNS
import Verif.Props.Encoders
import Verif.Props.ExponentialFilter
import Verif.Props.Imex

/-!
# C64: the spectral Navier-Stokes step conserves the circulation
-/

namespace JaxCfd

/-- A half spectrum without content at the Nyquist frequencies. -/
def NoNyquist (N M : ℕ) (x : NArr 2 ℂ) : Prop :=
  ∀ r c : ℤ, 0 ≤ r → r < N → 0 ≤ c → c ≤ (M / 2 : ℕ) → (2 * r = N ∨ 2 * c = M) → x.data ![r, c] = 0

/-- The full spectrum of the real field that the inverse transform makes of a half spectrum: its first column need not be hermitian. -/
noncomputable def fullSpectrum (N M : ℕ) (x : NArr 2 ℂ) (p : ℤ × ℤ) : ℂ :=
  if p ∈ band ((N - 1) / 2) ((M - 1) / 2) then
    if p.2 = 0 then (x.data ![p.1 % N, 0] + (starRingEnd ℂ) (x.data ![(-p.1) % N, 0])) / 2
    else if 0 < p.2 then x.data ![p.1 % N, p.2] else (starRingEnd ℂ) (x.data ![(-p.1) % N, -p.2])
  else 0

theorem fullSpectrum_band (N M : ℕ) (x : NArr 2 ℂ) : BandSpectrum ((N - 1) / 2) ((M - 1) / 2) (fullSpectrum N M x) := by
  constructor
  · intro p
    unfold fullSpectrum
    simp only [neg_mem_band, Prod.fst_neg, Prod.snd_neg, neg_neg, neg_eq_zero]
    split_ifs with h1 h2 h3 h4 h5
    · rw [map_div₀, map_add, Complex.conj_conj, map_ofNat, add_comm]
    · omega
    · rw [Complex.conj_conj]
    · rfl
    · omega
    · simp
  · intro p hp
    exact if_neg hp

theorem in_band {N M : ℕ} (hN : N ≠ 0) (hM : M % 2 = 0) {r c : ℤ} (h0 : 0 ≤ r) (h1 : r < N) (h2 : 0 ≤ c) (h3 : c ≤ (M / 2 : ℕ)) (hM0 : M ≠ 0) :
    (centred N r, c) ∈ band ((N - 1) / 2) ((M - 1) / 2) ∨ 2 * r = N ∨ 2 * c = M := by
  rw [mem_band]
  dsimp only
  have hb := centred_bounds hN r
  have hd : centred N r = r ∨ centred N r = r - N := by
    obtain ⟨t, ht⟩ := ML.centred_dvd (n := N) r
    have : t = 0 ∨ t = -1 := by
      have a1 : (N : ℤ) * t < N * 1 := by omega
      have a2 : (N : ℤ) * (-2) < N * t := by omega
      have b1 := lt_of_mul_lt_mul_left a1 (by omega)
      have b2 := lt_of_mul_lt_mul_left a2 (by omega)
      omega
    rcases this with rfl | rfl
    · left; linarith
    · right; linarith
  omega

theorem neg_centred_emod (N : ℕ) (r : ℤ) : (-centred N r) % N = (-r) % N := by
  have h := ML.centred_dvd (n := N) r
  refine Int.emod_eq_emod_iff_emod_sub_eq_zero.2 (Int.emod_eq_zero_of_dvd ?_)
  have e : -centred N r - -r = -(centred N r - r) := by ring
  rw [e]
  exact (dvd_neg).2 h

theorem fullSpectrum_eq {N M : ℕ} (hN : N ≠ 0) (hM : M % 2 = 0) (hM0 : M ≠ 0) {x : NArr 2 ℂ} (hx : NoNyquist N M x) {r c : ℤ} (h0 : 0 ≤ r)
    (h1 : r < N) (h2 : 0 ≤ c) (h3 : c ≤ (M / 2 : ℕ)) :
    fullSpectrum N M x (centred N r, c) =
      if c = 0 then (x.data ![r, 0] + (starRingEnd ℂ) (x.data ![(-r) % N, 0])) / 2 else x.data ![r, c] := by
  have er : centred N r % N = r := by rw [centred_emod, Int.emod_eq_of_lt h0 h1]
  unfold fullSpectrum
  by_cases hb : (centred N r, c) ∈ band ((N - 1) / 2) ((M - 1) / 2)
  · rw [if_pos hb]
    dsimp only
    rw [er, neg_centred_emod]
    by_cases hc : c = 0
    · rw [if_pos hc, if_pos hc]
    · rw [if_neg hc, if_neg hc, if_pos (by omega)]
  · rw [if_neg hb]
    have hnyq := (in_band hN hM h0 h1 h2 h3 hM0).resolve_left hb
    by_cases hc : c = 0
    · rw [if_pos hc]
      have hr : 2 * r = N := by omega
      have hr' : (-r) % N = r := by
        have e : -r = r - N := by omega
        rw [e, Int.sub_emod_right, Int.emod_eq_of_lt h0 h1]
      rw [hr', hx r 0 h0 h1 le_rfl (by omega) (Or.inl hr)]
      simp
    · rw [if_neg hc, hx r c h0 h1 h2 h3 hnyq]

/-- The half spectrum of the field. -/
noncomputable def symArr (N M : ℕ) (x : NArr 2 ℂ) : NArr 2 ℂ := ⟨x.shape, fun i => fullSpectrum N M x (centred N (i 0), i 1)⟩

theorem symArr_represents {N M : ℕ} {x : NArr 2 ℂ} (hx : x.shape = ![N, M / 2 + 1]) : Represents N M (symArr N M x) (fullSpectrum N M x) :=
  ⟨hx, fun _ _ _ _ _ _ => rfl⟩

theorem column_sym {N : ℕ} (hN : N ≠ 0) (f : ℤ → ℂ) (i : ℤ) :
    (∑ r ∈ Finset.Ico (0 : ℤ) N, (f r + (starRingEnd ℂ) (f ((-r) % N))) / 2 * wave N r i).re = (∑ r ∈ Finset.Ico (0 : ℤ) N, f r * wave N r i).re := by
  have hper : ∀ j : ℤ, f ((j + N) % N) * wave N (j + N) i = f (j % N) * wave N j i := fun j => by
    rw [Int.add_emod_right, wave_period (p := j + N) (q := j) ⟨1, by ring⟩]
  have h := sum_reflect (n := N) (fun j => f (j % N) * wave N j i) hper 0
  have e1 : ∑ r ∈ Finset.Ico (0 : ℤ) N, (starRingEnd ℂ) (f ((-r) % N)) * wave N r i =
      (starRingEnd ℂ) (∑ r ∈ Finset.Ico (0 : ℤ) N, f r * wave N r i) := by
    have e2 : ∑ r ∈ Finset.Ico (0 : ℤ) N, f r * wave N r i = ∑ r ∈ Finset.Ico (0 : ℤ) N, f (r % N) * wave N r i :=
      Finset.sum_congr rfl fun r hr => by
        rw [Finset.mem_Ico] at hr
        rw [Int.emod_eq_of_lt hr.1 hr.2]
    rw [e2, ← h, map_sum]
    refine Finset.sum_congr rfl fun r _ => ?_
    rw [zero_sub, map_mul, ← wave_neg, neg_neg]
  have e3 : ∑ r ∈ Finset.Ico (0 : ℤ) N, (f r + (starRingEnd ℂ) (f ((-r) % N))) / 2 * wave N r i =
      (∑ r ∈ Finset.Ico (0 : ℤ) N, f r * wave N r i + (starRingEnd ℂ) (∑ r ∈ Finset.Ico (0 : ℤ) N, f r * wave N r i)) / 2 := by
    rw [← e1, ← Finset.sum_add_distrib, Finset.sum_div]
    exact Finset.sum_congr rfl fun r _ => by ring
  rw [e3, Complex.add_conj]
  simp

/-- The inverse transform only sees the hermitian part of the first column. -/
theorem irfftn_sym {N M : ℕ} (hN : N ≠ 0) (hM : M % 2 = 0) (hM0 : M ≠ 0) {x : NArr 2 ℂ} (hs : x.shape = ![N, M / 2 + 1]) (hx : NoNyquist N M x) (i : Idx 2)
    (hi : 0 ≤ i 1) : (irfftn (k := 1) x).data i = (irfftn (k := 1) (symArr N M x)).data i := by
  rw [irfftn2 hM hM0 hs i hi, irfftn2 hM hM0 (x := symArr N M x) hs i hi]
  congr 1
  rw [Finset.sum_comm, Finset.sum_comm (s := Finset.Ico (0 : ℤ) N), Complex.re_sum, Complex.re_sum]
  refine Finset.sum_congr rfl fun c hc => ?_
  rw [Finset.mem_Icc] at hc
  have hsym : ∀ r ∈ Finset.Ico (0 : ℤ) N, (symArr N M x).data ![r, c] =
      if c = 0 then (x.data ![r, 0] + (starRingEnd ℂ) (x.data ![(-r) % N, 0])) / 2 else x.data ![r, c] := fun r hr => by
    rw [Finset.mem_Ico] at hr
    exact fullSpectrum_eq hN hM hM0 hx hr.1 hr.2 hc.1 hc.2
  by_cases h0 : c = 0
  · subst h0
    have hw : ∀ r : ℤ, wave2 N M (r, 0) (i 0, i 1) = wave N r (i 0) := fun r => by
      unfold wave2
      dsimp only
      rw [wave_zero, mul_one]
    simp only [hw]
    have e1 : ∀ y : ℤ → ℂ, ∑ r ∈ Finset.Ico (0 : ℤ) N, (colWeight M 0 : ℂ) * y r * wave N r (i 0) =
        (colWeight M 0 : ℂ) * ∑ r ∈ Finset.Ico (0 : ℤ) N, y r * wave N r (i 0) := fun y => by
      rw [Finset.mul_sum]
      exact Finset.sum_congr rfl fun r _ => by ring
    rw [e1 fun r => x.data ![r, 0], e1 fun r => (symArr N M x).data ![r, 0], Complex.re_ofReal_mul, Complex.re_ofReal_mul]
    congr 1
    rw [← column_sym hN fun r => x.data ![r, 0]]
    refine congrArg Complex.re (Finset.sum_congr rfl fun r hr => ?_)
    rw [hsym r hr, if_pos rfl]
  · refine congrArg Complex.re (Finset.sum_congr rfl fun r hr => ?_)
    rw [hsym r hr, if_neg h0]

/-- The field of a half spectrum as a Fourier series. -/
theorem field_series {N M : ℕ} (hN : N ≠ 0) (hM : M % 2 = 0) (hM0 : M ≠ 0) {x : NArr 2 ℂ} (hs : x.shape = ![N, M / 2 + 1]) (hx : NoNyquist N M x)
    (j : ℤ × ℤ) (hj : 0 ≤ j.2) :
    (((irfftn (k := 1) x).data ![j.1, j.2] : ℝ) : ℂ) =
      (∑ p ∈ band ((N - 1) / 2) ((M - 1) / 2), fullSpectrum N M x p * wave2 N M p j) / (N * M) := by
  rw [irfftn_sym hN hM hM0 hs hx _ hj]
  exact irfftn_band (by omega) (by omega) hM (fullSpectrum_band N M x) (symArr_represents hs) j hj

/-- Multipliers commute with taking the hermitian part. -/
theorem fullSpectrum_mul {N M : ℕ} (hN : N ≠ 0) (hM0 : M ≠ 0) {x y : NArr 2 ℂ} {m : ℤ × ℤ → ℂ} (hm : ∀ p, m (-p) = (starRingEnd ℂ) (m p))
    (h : ∀ r c : ℤ, 0 ≤ r → r < N → 0 ≤ c → c ≤ (M / 2 : ℕ) → y.data ![r, c] = m (centred N r, c) * x.data ![r, c]) (p : ℤ × ℤ) :
    fullSpectrum N M y p = m p * fullSpectrum N M x p := by
  unfold fullSpectrum
  by_cases hp : p ∈ band ((N - 1) / 2) ((M - 1) / 2)
  · rw [if_pos hp, if_pos hp]
    have hp' := mem_band.1 hp
    have n0 : ∀ z : ℤ, 0 ≤ z % N := fun z => Int.emod_nonneg _ (by omega)
    have n1 : ∀ z : ℤ, z % N < N := fun z => Int.emod_lt_of_pos _ (by omega)
    have c1 : centred N (p.1 % N) = p.1 := centred_of_band (P := (N - 1) / 2) (by omega) hp'.1
    have c2 : centred N ((-p.1) % N) = -p.1 := centred_of_band (P := (N - 1) / 2) (by omega) (by omega)
    split_ifs with h1 h2
    · rw [h _ 0 (n0 _) (n1 _) le_rfl (by omega), h _ 0 (n0 _) (n1 _) le_rfl (by omega), c1, c2, map_mul, ← hm]
      have e : -(-p.1, (0 : ℤ)) = p := Prod.ext (by simp) (by simp [h1])
      have e' : (p.1, (0 : ℤ)) = p := Prod.ext rfl h1.symm
      rw [e, e']
      ring
    · rw [h _ _ (n0 _) (n1 _) (by omega) (by omega), c1]
    · rw [h _ _ (n0 _) (n1 _) (by omega) (by omega), c2, map_mul, ← hm]
      have e : -(-p.1, -p.2) = p := Prod.ext (by simp) (by simp)
      rw [e]
  · rw [if_neg hp, if_neg hp, mul_zero]

theorem NoNyquist.mul {N M : ℕ} {x y : NArr 2 ℂ} {m : ℤ → ℤ → ℂ} (hx : NoNyquist N M x)
    (h : ∀ r c : ℤ, 0 ≤ r → r < N → 0 ≤ c → c ≤ (M / 2 : ℕ) → y.data ![r, c] = m r c * x.data ![r, c]) : NoNyquist N M y :=
  fun r c h0 h1 h2 h3 h4 => by rw [h r c h0 h1 h2 h3, hx r c h0 h1 h2 h3 h4, mul_zero]

/-- The advection has no mean, and the 2/3 filter removes its Nyquist frequencies. -/
theorem nsAdvection_mean {g : Grid 2 ℝ} (hg : g.Proper) (he : g.shape 1 % 2 = 0) (smooth : Option Bool) {w : NArr 2 ℂ} (hs : w.shape = rfftShape2 g)
    (hw : NoNyquist (g.shape 0) (g.shape 1) w) :
    ∃ z, nsAdvection g smooth w = .ok z ∧ z.shape = rfftShape2 g ∧ z.data ![0, 0] = 0 ∧
      (smooth.isSome → 3 ≤ g.shape 0 → NoNyquist (g.shape 0) (g.shape 1) z) := by
  have hN0 : g.shape 0 ≠ 0 := (hg 0).1
  have hM0 : g.shape 1 ≠ 0 := (hg 1).1
  set N := g.shape 0 with hN
  set M := g.shape 1 with hMd
  have hNC : (N : ℂ) ≠ 0 := by exact_mod_cast hN0
  have hMC : (M : ℂ) ≠ 0 := by exact_mod_cast hM0
  have hs' : w.shape = ![N, M / 2 + 1] := hs
  set W := fullSpectrum N M w with hW
  set B := band ((N - 1) / 2) ((M - 1) / 2) with hB
  -- fields of multipliers of `w`
  have hfield : ∀ (m : ℤ × ℤ → ℂ) (hm : ∀ p, m (-p) = (starRingEnd ℂ) (m p)) (x : NArr 2 ℂ) (hxs : x.shape = w.shape)
      (hx : ∀ r c : ℤ, 0 ≤ r → r < N → 0 ≤ c → c ≤ (M / 2 : ℕ) → x.data ![r, c] = m (centred N r, c) * w.data ![r, c]),
      ∀ j ∈ points N M, (((irfftn (k := 1) x).data ![j.1, j.2] : ℝ) : ℂ) = ∑ p ∈ B, (m p * W p / (N * M)) * wave2 N M p j := by
    intro m hm x hxs hx j hj
    unfold points at hj
    rw [Finset.mem_product, Finset.mem_Ico, Finset.mem_Ico] at hj
    rw [field_series hN0 he hM0 (hxs.trans hs') (hw.mul (m := fun r c => m (centred N r, c)) hx) j hj.2.1, Finset.sum_div]
    refine Finset.sum_congr rfl fun p _ => ?_
    rw [fullSpectrum_mul hN0 hM0 hm hx]
    ring
  have hstr : ∀ p, (((waveX g (-p) ^ 2 + waveY g (-p) ^ 2 : ℝ) : ℂ))⁻¹ = (starRingEnd ℂ) ((((waveX g p ^ 2 + waveY g p ^ 2 : ℝ) : ℂ))⁻¹) := fun p => by
    rw [waveX_neg, waveY_neg, neg_sq, neg_sq, map_inv₀, Complex.conj_ofReal]
  have hvx := hfield (fun p => Complex.I * waveY g p * (((waveX g p ^ 2 + waveY g p ^ 2 : ℝ) : ℂ))⁻¹)
    (fun p => by rw [hstr, mulY_conj, map_mul (starRingEnd ℂ) (Complex.I * _)])
    ⟨w.shape, fun i => (vorticityToVelocity g (fun r c => w.data ![r, c]) (i 0) (i 1)).1⟩ rfl (fun r c h1 h2 h3 h4 => by
      have := congrArg Prod.fst (v2v_coef hg (fun r c => w.data ![r, c]) (fun p => w.data ![r, c]) r c h1 h2 rfl)
      refine Eq.trans this ?_
      unfold velXCoef streamCoef
      dsimp only
      rw [div_eq_mul_inv]; ring)
  have hvy := hfield (fun p => -(Complex.I * waveX g p * (((waveX g p ^ 2 + waveY g p ^ 2 : ℝ) : ℂ))⁻¹))
    (fun p => by rw [hstr, mulX_conj, map_neg, map_mul (starRingEnd ℂ) (Complex.I * _)])
    ⟨w.shape, fun i => (vorticityToVelocity g (fun r c => w.data ![r, c]) (i 0) (i 1)).2⟩ rfl (fun r c h1 h2 h3 h4 => by
      have := congrArg Prod.snd (v2v_coef hg (fun r c => w.data ![r, c]) (fun p => w.data ![r, c]) r c h1 h2 rfl)
      refine Eq.trans this ?_
      unfold velYCoef streamCoef
      dsimp only
      rw [div_eq_mul_inv]; ring)
  have hgx := hfield (fun p => Complex.I * waveX g p) (mulX_conj g)
    ⟨w.shape, fun i => twoPiI * ((rfftMesh g (i 0) (i 1)).1 : ℝ) * w.data i⟩ rfl (fun r c h1 h2 h3 h4 => by
      show twoPiI * (((rfftMesh g r c).1 : ℝ) : ℂ) * w.data ![r, c] = _
      rw [deriv_x hg r c h1 h2])
  have hgy := hfield (fun p => Complex.I * waveY g p) (mulY_conj g)
    ⟨w.shape, fun i => twoPiI * ((rfftMesh g (i 0) (i 1)).2 : ℝ) * w.data i⟩ rfl (fun r c h1 h2 h3 h4 => by
      show twoPiI * (((rfftMesh g r c).2 : ℝ) : ℂ) * w.data ![r, c] = _
      rw [deriv_y hg r c])
  set vx := irfftn (k := 1) ⟨w.shape, fun i => (vorticityToVelocity g (fun r c => w.data ![r, c]) (i 0) (i 1)).1⟩ with hvxd
  set vy := irfftn (k := 1) ⟨w.shape, fun i => (vorticityToVelocity g (fun r c => w.data ![r, c]) (i 0) (i 1)).2⟩ with hvyd
  set gx := irfftn (k := 1) ⟨w.shape, fun i => twoPiI * ((rfftMesh g (i 0) (i 1)).1 : ℝ) * w.data i⟩ with hgxd
  set gy := irfftn (k := 1) ⟨w.shape, fun i => twoPiI * ((rfftMesh g (i 0) (i 1)).2 : ℝ) * w.data i⟩ with hgyd
  have hvs : vx.shape = ![N, M] := irfftn2_shape he hs'
  set hat := rfftn (k := 1) ⟨vx.shape, fun i => -(gx.data i * vx.data i + gy.data i * vy.data i)⟩ with hhat
  have hhs : hat.shape = rfftShape2 g := rfftn2_shape hvs
  have hpairs : ∀ a ∈ B, ∀ b ∈ B, ((N : ℤ) ∣ a.1 + b.1 - 0 ∧ (M : ℤ) ∣ a.2 + b.2 - 0) → b = -a := by
    intro a ha b hb h
    have ha' := mem_band.1 ha
    have hb' := mem_band.1 hb
    obtain ⟨⟨s, hs⟩, t, ht⟩ := h
    have small : ∀ (n : ℕ) (x t : ℤ), x = n * t → -(n : ℤ) < x → x < n → x = 0 := by
      intro n x t h h1 h2
      have a1 : (n : ℤ) * t < n * 1 := by omega
      have a2 : (n : ℤ) * (-1) < n * t := by omega
      have b1 := lt_of_mul_lt_mul_left a1 (by omega)
      have b2 := lt_of_mul_lt_mul_left a2 (by omega)
      have : t = 0 := by omega
      rw [h, this, mul_zero]
    have e1 := small N _ s hs (by omega) (by omega)
    have e2 := small M _ t ht (by omega) (by omega)
    exact Prod.ext (by rw [Prod.fst_neg]; omega) (by rw [Prod.snd_neg]; omega)
  have hval : hat.data ![0, 0] = 0 := by
    rw [hhat, rfftn2 (x := ⟨vx.shape, fun i => -(gx.data i * vx.data i + gy.data i * vy.data i)⟩) hvs]
    have e : ∀ j ∈ points N M, ((-(gx.data ![j.1, j.2] * vx.data ![j.1, j.2] + gy.data ![j.1, j.2] * vy.data ![j.1, j.2]) : ℝ) : ℂ) *
        (starRingEnd ℂ) (wave2 N M ((![0, 0] : Idx 2) 0, (![0, 0] : Idx 2) 1) j) =
        -((∑ p ∈ B, (Complex.I * waveX g p * W p / (N * M)) * wave2 N M p j) *
            (∑ p ∈ B, (Complex.I * waveY g p * (((waveX g p ^ 2 + waveY g p ^ 2 : ℝ) : ℂ))⁻¹ * W p / (N * M)) * wave2 N M p j) *
            (starRingEnd ℂ) (wave2 N M (0, 0) j)) +
        -((∑ p ∈ B, (Complex.I * waveY g p * W p / (N * M)) * wave2 N M p j) *
            (∑ p ∈ B, (-(Complex.I * waveX g p * (((waveX g p ^ 2 + waveY g p ^ 2 : ℝ) : ℂ))⁻¹) * W p / (N * M)) * wave2 N M p j) *
            (starRingEnd ℂ) (wave2 N M (0, 0) j)) := by
      intro j hj
      rw [← hvx j hj, ← hvy j hj, ← hgx j hj, ← hgy j hj]
      push_cast
      show _ * (starRingEnd ℂ) (wave2 N M (0, 0) j) = _
      ring
    rw [Finset.sum_congr rfl e, Finset.sum_add_distrib, Finset.sum_neg_distrib, Finset.sum_neg_distrib, sum_prod_wave hN0 hM0, sum_prod_wave hN0 hM0,
      ← neg_add, ← mul_add, ← Finset.sum_add_distrib, Finset.sum_eq_zero, mul_zero, neg_zero]
    intro a ha
    rw [← Finset.sum_add_distrib]
    refine Finset.sum_eq_zero fun b hb => ?_
    dsimp only
    split_ifs with h
    · have hba := hpairs a ha b hb h
      subst hba
      rw [waveX_neg, waveY_neg]
      push_cast
      ring
    · exact add_zero 0
  have hadv : nsAdvection g smooth w = match smooth with
      | none => .ok hat
      | some _ => .ok ⟨hat.shape, fun i => hat.data i * (brickWallFilter N M (i 0) (i 1) : ℝ)⟩ := by
    unfold nsAdvection
    rw [if_neg (by simp [hs])]
    cases smooth with
    | none => rfl
    | some b => exact if_pos hhs
  cases smooth with
  | none => exact ⟨hat, hadv, hhs, hval, fun h => absurd h (by simp)⟩
  | some b =>
    refine ⟨_, hadv, hhs, ?_, fun _ h3 r c h0 h1 h2 h4 h5 => ?_⟩
    · show hat.data ![0, 0] * _ = 0
      rw [hval, zero_mul]
    · show hat.data ![r, c] * ((brickWallFilter N M r c : ℝ) : ℂ) = 0
      by_cases hf : brickWallFilter N M r c = 0
      · rw [hf]; simp
      · exfalso
        have hcut := C46_brick_wall_cutoff N M r c (by omega) h0 h1 hf
        rcases h5 with h5 | h5
        · have hc : centred N r = -r := by
            unfold centred
            rw [show r + ((N / 2 : ℕ) : ℤ) = N by omega, Int.emod_self]; omega
          rw [hc, abs_neg, abs_of_nonneg h0] at hcut
          omega
        · unfold brickWallFilter at hf
          dsimp only at hf
          exact hf (if_neg (by omega))

/-! ### Low-storage schemes and linear invariants -/

/-- A linear functional of the states that turns the two terms and the solver into those of another equation turns the scheme into that
for the other equation. -/
theorem rkcn_map {V W : Type} [AddCommGroup V] [Module ℝ V] [AddCommGroup W] [Module ℝ W] (S : V → Prop) (φ : V →ₗ[ℝ] W) (h0 : S 0)
    (hadd : ∀ u v, S u → S v → S (u + v)) (hsmul : ∀ (c : ℝ) u, S u → S (c • u)) {F G : V → V} {Ginv : V → ℝ → V} {F' G' : W → W} {Ginv' : W → ℝ → W}
    (hF : ∀ u, S u → S (F u) ∧ φ (F u) = F' (φ u)) (hG : ∀ u, S u → S (G u) ∧ φ (G u) = G' (φ u))
    (hGi : ∀ u h, S u → S (Ginv u h) ∧ φ (Ginv u h) = Ginv' (φ u) h) (α β γ : List ℝ) (ha : α.length = β.length + 1) (hc : γ.length = β.length) (dt : ℝ)
    (u : V) (hu : S u) :
    ∃ r, lowStorageRKCN α β γ F G Ginv dt u = .ok r ∧ S r ∧ lowStorageRKCN α β γ F' G' Ginv' dt (φ u) = .ok (φ r) := by
  have key : ∀ n ≤ β.length, ∃ r : V × V, (List.range n).foldlM (lowStorageStage α β γ F G Ginv dt) (0, u) = .ok r ∧ S r.1 ∧ S r.2 ∧
      (List.range n).foldlM (lowStorageStage α β γ F' G' Ginv' dt) (0, φ u) = .ok (φ r.1, φ r.2) := by
    intro n
    induction n with
    | zero => exact fun _ => ⟨(0, u), rfl, h0, hu, by rw [map_zero]; rfl⟩
    | succ n ih =>
      intro hn
      obtain ⟨r, e1, s1, s2, e2⟩ := ih (by omega)
      have sF := hF _ s2
      have sG := hG _ s2
      have sh : S (F r.2 + β.getD n 0 • r.1) := hadd _ _ sF.1 (hsmul _ _ s1)
      have si := hGi (r.2 + (γ.getD n 0 * dt) • (F r.2 + β.getD n 0 • r.1) + (1 / 2 * dt * (α.getD (n + 1) 0 - α.getD n 0)) • G r.2)
        (1 / 2 * dt * (α.getD (n + 1) 0 - α.getD n 0)) (hadd _ _ (hadd _ _ s2 (hsmul _ _ sh)) (hsmul _ _ sG.1))
      refine ⟨(F r.2 + β.getD n 0 • r.1, Ginv (r.2 + (γ.getD n 0 * dt) • (F r.2 + β.getD n 0 • r.1) +
        (1 / 2 * dt * (α.getD (n + 1) 0 - α.getD n 0)) • G r.2) (1 / 2 * dt * (α.getD (n + 1) 0 - α.getD n 0))), ?_, sh, si.1, ?_⟩
      · rw [List.range_succ, List.foldlM_append, e1]
        simp only [Except.bind_ok, List.foldlM_cons, List.foldlM_nil]
        rw [lowStorageStage_ok α β γ F G Ginv dt r n (by omega) (by omega) (by omega)]
        rfl
      · rw [List.range_succ, List.foldlM_append, e2]
        simp only [Except.bind_ok, List.foldlM_cons, List.foldlM_nil]
        rw [lowStorageStage_ok α β γ F' G' Ginv' dt (φ r.1, φ r.2) n (by omega) (by omega) (by omega)]
        simp only [si.2, map_add, map_smul, sF.2, sG.2]
        rfl
  obtain ⟨r, e1, s1, s2, e2⟩ := key _ le_rfl
  have hif : ¬ ((α.length : ℤ) - 1 ≠ β.length ∧ β.length ≠ γ.length) := by omega
  refine ⟨r.2, ?_, s2, ?_⟩
  · unfold lowStorageRKCN
    rw [if_neg hif, e1]
    rfl
  · unfold lowStorageRKCN
    rw [if_neg hif, e2]
    rfl

end JaxCfd
