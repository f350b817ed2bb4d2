import Verif.Model.SpectralEquations
import Verif.Props.SpectralUtils
import Verif.Props.SpectralVelocity

/-!
# C48: the pseudospectral equations

`implicit_solve(u, dt)` is the solution of `u' - dt * implicit_terms(u') = u`; the nonlinear terms are the Fourier-Galerkin
ones and conserve what they should.
-/

namespace JaxCfd

theorem zip_ok {K L M : Type} (f : K → L → M) {a : Vec K} {b : Vec L} (h : a.n = b.n) :
    Vec.zip f a b = .ok ⟨a.n, fun k => f (a.e k) (b.e k)⟩ := if_pos h

/-! ### Linear terms -/

theorem twoPiI_sq : twoPiI ^ 2 = ((-(2 * Real.pi) ^ 2 : ℝ) : ℂ) := by
  unfold twoPiI
  rw [mul_pow, Complex.I_sq]
  push_cast
  ring

/-- The linear term of Kuramoto-Sivashinsky is the real number `κ² - κ⁴`, `κ` the angular wavenumber. -/
theorem ksLinear_eq (g : Grid 1 ℝ) (k : ℤ) :
    (ksLinear g).e k = (((2 * Real.pi * rfftfreq (g.shape 0) (g.step 0) k) ^ 2 -
      (2 * Real.pi * rfftfreq (g.shape 0) (g.step 0) k) ^ 4 : ℝ) : ℂ) := by
  simp only [ksLinear, rfftDeriv]
  rw [show ((twoPiI * (rfftfreq (g.shape 0) (g.step 0) k : ℝ)) ^ 4 : ℂ) = ((twoPiI * (rfftfreq (g.shape 0) (g.step 0) k : ℝ)) ^ 2) ^ 2 by ring,
    mul_pow, twoPiI_sq]
  push_cast
  ring

theorem ksLinear_lt {g : Grid 1 ℝ} {dt : ℝ} (h0 : 0 ≤ dt) (h1 : dt < 4) (k : ℤ) : (1 : ℂ) - dt * (ksLinear g).e k ≠ 0 := by
  rw [ksLinear_eq]
  set x := (2 * Real.pi * rfftfreq (g.shape 0) (g.step 0) k) ^ 2 with hx
  have e : (2 * Real.pi * rfftfreq (g.shape 0) (g.step 0) k) ^ 4 = x ^ 2 := by rw [hx]; ring
  rw [e]
  have h2 : x - x ^ 2 ≤ 1 / 4 := by nlinarith [sq_nonneg (x - 1 / 2)]
  have h3 : dt * (x - x ^ 2) < 1 := by nlinarith
  intro h
  have h4 : (1 : ℝ) - dt * (x - x ^ 2) = 0 := by exact_mod_cast h
  linarith

/-- **C48** Kuramoto-Sivashinsky, `0 ≤ dt < 4`: on every grid, `implicit_solve(u, dt)` solves `u' - dt implicit_terms(u') = u`, and
it is the only solution. -/
theorem C48_ks_solve (g : Grid 1 ℝ) (dt : ℝ) (h0 : 0 ≤ dt) (h1 : dt < 4) (u : Vec ℂ) (hu : u.n = g.shape 0 / 2 + 1) :
    ∃ y, ksSolve g u dt = .ok y ∧ y.n = u.n ∧
      (∃ z, ksImplicit g y = .ok z ∧ ∀ k : ℤ, y.e k - dt * z.e k = u.e k) ∧
      ∀ y' z' : Vec ℂ, y'.n = u.n → ksImplicit g y' = .ok z' →
        (∀ k : ℤ, 0 ≤ k → k < u.n → y'.e k - dt * z'.e k = u.e k) → y'.Eqv y := by
  have hl : (ksLinear g).n = u.n := hu.symm
  refine ⟨_, zip_ok _ hl, hl, ⟨_, zip_ok _ rfl, ?_⟩, ?_⟩
  · intro k
    have := ksLinear_lt (g := g) h0 h1 k
    dsimp only
    field_simp
  · intro y' z' hy' hz' hk
    rw [ksImplicit, zip_ok _ (hl.trans hy'.symm)] at hz'
    injection hz' with hz'
    subst hz'
    refine ⟨hy'.trans hl.symm, ?_⟩
    intro k k0 k1
    have := ksLinear_lt (g := g) h0 h1 k
    have h2 := hk k k0 (hy' ▸ k1)
    dsimp only at h2 ⊢
    rw [← h2]
    field_simp

/-- For `dt ≥ 4` the restriction is needed: there is a periodic domain with a mode for which the implicit equation has no
solution at all (`implicit_solve` divides by zero there). -/
theorem C48_ks_singular (dt : ℝ) (h : 4 ≤ dt) :
    ∃ (g : Grid 1 ℝ) (u : Vec ℂ), g.Proper ∧ u.n = g.shape 0 / 2 + 1 ∧
      ∀ y z : Vec ℂ, y.n = u.n → ksImplicit g y = .ok z → ¬ ∀ k : ℤ, 0 ≤ k → k < u.n → y.e k - dt * z.e k = u.e k := by
  -- choose the length L with (2π/L)² = s, s - s² = 1/dt
  set s : ℝ := (1 + Real.sqrt (1 - 4 / dt)) / 2 with hs
  have hdt : 0 < dt := by linarith
  have hq : 0 ≤ 1 - 4 / dt := by
    rw [sub_nonneg, div_le_one hdt]; exact h
  have hsq := Real.sq_sqrt hq
  have hspos : 0 < s := by
    have := Real.sqrt_nonneg (1 - 4 / dt)
    rw [hs]; linarith
  have hss : dt * (s - s ^ 2) = 1 := by
    have : s - s ^ 2 = 1 / dt := by
      rw [hs]
      have : 4 / dt = 4 * (1 / dt) := by ring
      rw [this] at hsq ⊢
      nlinarith
    rw [this]; field_simp
  have hpi := Real.pi_pos
  have hr : 0 < Real.sqrt s := Real.sqrt_pos.2 hspos
  set L : ℝ := 2 * Real.pi / Real.sqrt s with hL
  have hLpos : 0 < L := by positivity
  refine ⟨⟨fun _ => 4, fun _ => (0, L)⟩, ⟨3, fun _ => 1⟩, fun a => ⟨by show (4 : ℕ) ≠ 0; decide, hLpos⟩, by show 3 = 4 / 2 + 1; norm_num, ?_⟩
  intro y z hy hz hk
  rw [ksImplicit, zip_ok _ (by rw [hy]; show 4 / 2 + 1 = 3; norm_num)] at hz
  injection hz with hz
  subst hz
  have h1 := hk 1 (by norm_num) (by norm_num)
  dsimp only at h1
  rw [ksLinear_eq] at h1
  have hf : (2 * Real.pi * rfftfreq 4 ((⟨fun _ => 4, fun _ => (0, L)⟩ : Grid 1 ℝ).step 0) 1) = Real.sqrt s := by
    unfold rfftfreq Grid.step
    simp only [Int.cast_one, sub_zero, Nat.cast_ofNat]
    rw [hL]
    field_simp
  rw [hf] at h1
  have e4 : Real.sqrt s ^ 4 = s ^ 2 := by
    rw [show Real.sqrt s ^ 4 = (Real.sqrt s ^ 2) ^ 2 by ring, Real.sq_sqrt hspos.le]
  rw [Real.sq_sqrt hspos.le, e4] at h1
  have hssC : (dt : ℂ) * ((s - s ^ 2 : ℝ) : ℂ) = 1 := by exact_mod_cast hss
  rw [← mul_assoc, hssC] at h1
  simp at h1

/-- **C48** Burgers with nonnegative viscosity: the implicit solve is exact and unique for every `dt ≥ 0`, does not amplify any
mode, and leaves the time alone. -/
theorem C48_burgers_solve (g : Grid 1 ℝ) (nu dt t : ℝ) (hnu : 0 ≤ nu) (h0 : 0 ≤ dt) (u : Vec ℂ) (hu : u.n = g.shape 0 / 2 + 1) :
    ∃ y, burgersSolve nu g (u, t) dt = .ok (y, t) ∧ y.n = u.n ∧ (∀ k : ℤ, ‖y.e k‖ ≤ ‖u.e k‖) ∧
      ∃ z, burgersImplicit nu g (y, t) = .ok (z, 0) ∧ ∀ k : ℤ, y.e k - dt * z.e k = u.e k := by
  have hl : (burgersLinear nu g).n = u.n := hu.symm
  have key : ∀ k : ℤ, ∃ a : ℝ, 1 ≤ a ∧ (1 : ℂ) - dt * (burgersLinear nu g).e k = (a : ℂ) := by
    intro k
    refine ⟨1 + dt * (nu * (2 * Real.pi * rfftfreq (g.shape 0) (g.step 0) k) ^ 2), ?_, ?_⟩
    · have := mul_nonneg h0 (mul_nonneg hnu (sq_nonneg (2 * Real.pi * rfftfreq (g.shape 0) (g.step 0) k)))
      linarith
    · simp only [burgersLinear, rfftDeriv]
      rw [mul_pow, twoPiI_sq]
      push_cast
      ring
  refine ⟨⟨(burgersLinear nu g).n, fun k => 1 / (1 - dt * (burgersLinear nu g).e k) * u.e k⟩,
    by simp [burgersSolve, zip_ok _ hl, bind, Except.bind, pure, Except.pure], hl, ?_,
    ⟨(burgersLinear nu g).n, fun k => (burgersLinear nu g).e k * (1 / (1 - dt * (burgersLinear nu g).e k) * u.e k)⟩,
    by simp [burgersImplicit, Vec.zip, bind, Except.bind, pure, Except.pure], ?_⟩
  · intro k
    obtain ⟨a, ha, hk⟩ := key k
    dsimp only
    rw [hk, norm_mul, norm_div, norm_one, Complex.norm_real, Real.norm_eq_abs, abs_of_pos (by linarith)]
    have : 1 / a ≤ 1 := by rw [div_le_one (by linarith)]; exact ha
    nlinarith [norm_nonneg (u.e k)]
  · intro k
    obtain ⟨a, ha, hk⟩ := key k
    have hne : (1 : ℂ) - dt * (burgersLinear nu g).e k ≠ 0 := by
      rw [hk]
      exact_mod_cast (by linarith : a ≠ 0)
    dsimp only
    field_simp

/-- **C48** 2-D Navier-Stokes with nonnegative viscosity and drag: the implicit solve is exact for every `dt ≥ 0` and does not
amplify any mode. -/
theorem C48_ns_solve (g : Grid 2 ℝ) (nu drag dt : ℝ) (hnu : 0 ≤ nu) (hdrag : 0 ≤ drag) (h0 : 0 ≤ dt) (w : NArr 2 ℂ)
    (hw : w.shape = rfftShape2 g) :
    ∃ y, nsSolve nu drag g w dt = .ok y ∧ y.shape = w.shape ∧ (∀ i, ‖y.data i‖ ≤ ‖w.data i‖) ∧
      ∃ z, nsImplicit nu drag g y = .ok z ∧ ∀ i, y.data i - dt * z.data i = w.data i := by
  have key : ∀ r c : ℤ, ∃ a : ℝ, 1 ≤ a ∧ (1 : ℂ) - dt * nsLinear nu drag g r c = (a : ℂ) := by
    intro r c
    refine ⟨1 + dt * (nu * ((2 * Real.pi) ^ 2 * ((rfftMesh g r c).1 ^ 2 + (rfftMesh g r c).2 ^ 2)) + drag), ?_, ?_⟩
    · have : 0 ≤ nu * ((2 * Real.pi) ^ 2 * ((rfftMesh g r c).1 ^ 2 + (rfftMesh g r c).2 ^ 2)) + drag := by positivity
      have := mul_nonneg h0 this
      linarith
    · unfold nsLinear nsLaplace
      rw [mul_pow, mul_pow, Complex.I_sq]
      push_cast
      ring
  refine ⟨_, if_pos hw, rfl, ?_, _, if_pos hw, ?_⟩
  · intro i
    obtain ⟨a, ha, hk⟩ := key (i 0) (i 1)
    dsimp only
    rw [hk, norm_mul, norm_div, norm_one, Complex.norm_real, Real.norm_eq_abs, abs_of_pos (by linarith)]
    have : 1 / a ≤ 1 := by rw [div_le_one (by linarith)]; exact ha
    nlinarith [norm_nonneg (w.data i)]
  · intro i
    obtain ⟨a, ha, hk⟩ := key (i 0) (i 1)
    have hne : (1 : ℂ) - dt * nsLinear nu drag g (i 0) (i 1) ≠ 0 := by
      rw [hk]
      exact_mod_cast (by linarith : a ≠ 0)
    dsimp only
    field_simp

/-- **C48** Nonlinear Schrödinger: the implicit solve is exact and does not amplify any mode, for every `dt`, positive or
negative. -/
theorem C48_nls_solve (g : Grid 1 ℝ) (dt : ℝ) (u : Vec ℂ) (hu : u.n = g.shape 0) :
    ∃ y, nlsSolve g u dt = .ok y ∧ y.n = u.n ∧ (∀ k : ℤ, ‖y.e k‖ ≤ ‖u.e k‖) ∧
      ∃ z, nlsImplicit g y = .ok z ∧ ∀ k : ℤ, y.e k - dt * z.e k = u.e k := by
  have hl : u.n = (fftDeriv g).n := hu
  have key : ∀ k : ℤ, ∃ a : ℝ, (1 : ℂ) - dt * (-Complex.I * (fftDeriv g).e k ^ 2 / 8) = 1 + (a : ℂ) * Complex.I := by
    intro k
    refine ⟨-(dt * (2 * Real.pi * fftfreq (g.shape 0) (g.step 0) k) ^ 2 / 8), ?_⟩
    simp only [fftDeriv]
    rw [mul_pow, twoPiI_sq]
    push_cast
    ring
  have hnorm : ∀ a : ℝ, 1 ≤ ‖(1 : ℂ) + (a : ℂ) * Complex.I‖ := by
    intro a
    have h := Complex.abs_re_le_norm ((1 : ℂ) + (a : ℂ) * Complex.I)
    simpa using h
  refine ⟨_, zip_ok _ hl, rfl, ?_, _, zip_ok _ hl, ?_⟩
  · intro k
    obtain ⟨a, hk⟩ := key k
    dsimp only
    rw [hk, norm_div]
    exact div_le_self (norm_nonneg _) (hnorm a)
  · intro k
    obtain ⟨a, hk⟩ := key k
    have hne : (1 : ℂ) - dt * (-Complex.I * (fftDeriv g).e k ^ 2 / 8) ≠ 0 := by
      rw [hk]
      intro h
      have := hnorm a
      rw [h, norm_zero] at this
      linarith
    dsimp only
    set l := (fftDeriv g).e k
    have e : -Complex.I * (u.e k / (1 - dt * (-Complex.I * l ^ 2 / 8))) * l ^ 2 / 8 =
        (-Complex.I * l ^ 2 / 8) * (u.e k / (1 - dt * (-Complex.I * l ^ 2 / 8))) := by ring
    rw [e]
    set m := -Complex.I * l ^ 2 / 8
    field_simp

/-! ### The quadratic nonlinearity -/

/-- The truncated convolution of two full spectra with wavenumbers `|p| < n`. -/
noncomputable def galerkin (n : ℕ) (a b : ℤ → ℂ) (k : ℤ) : ℂ :=
  ∑ p ∈ Finset.Ioo (-(n : ℤ)) n, if |k - p| < n then a p * b (k - p) else 0

/-- `2πi k / L`: the derivative factor of wavenumber `k` on a grid of `N` points with step `h` (`L = N h`). -/
noncomputable def derivFactor (g : Grid 1 ℝ) (k : ℤ) : ℂ := twoPiI * ((k / (g.shape 0 * g.step 0) : ℝ) : ℂ)

theorem rfftDeriv_eq (g : Grid 1 ℝ) (k : ℤ) : (rfftDeriv g).e k = derivFactor g k := rfl

/-- **C48** `KuramotoSivashinsky.explicit_terms` with `smooth=True`, on every grid whose size is a multiple of 4: the
Fourier-Galerkin form of `-½ (u²)_x` in every mode but the last; the mean is zero. -/
theorem C48_ks_explicit (g : Grid 1 ℝ) (u : Vec ℂ) (h4 : g.shape 0 % 4 = 0) (h0 : g.shape 0 ≠ 0) (hu : u.n = g.shape 0 / 2 + 1) :
    ∃ z, ksExplicit g true u = .ok z ∧ z.n = u.n ∧ z.e 0 = 0 ∧
      ∀ k : ℤ, 0 ≤ k → k < u.n → (k = u.n - 1 → u.e k = 0) →
        z.e k = -(1 / 2) * derivFactor g k * (1 / (g.shape 0 : ℂ) * galerkin u.n (herm u.e) (herm u.e) k) := by
  obtain ⟨x, y, z, hx, hy, hxy, hz, hzn, hze⟩ := C46_dealias u u rfl (by omega) (by omega)
  rw [hx] at hy
  injection hy with hy
  subst hy
  have hsq : (⟨x.n, fun j => x.e j ^ 2⟩ : Vec ℝ) = ⟨x.n, fun j => x.e j * x.e j⟩ := by simp only [pow_two]
  have hN : (2 * ((u.n : ℂ) - 1)) = g.shape 0 := by
    have : 2 * (u.n - 1) = g.shape 0 := by omega
    rw [← this]
    push_cast [Nat.cast_sub (by omega : 1 ≤ u.n)]
    ring
  have hn : (rfftDeriv g).n = z.n := by rw [hzn, hu]; rfl
  refine ⟨⟨(rfftDeriv g).n, fun k => -(1 / 2) * (rfftDeriv g).e k * z.e k⟩,
    by simp only [ksExplicit, if_true, hx, bind, Except.bind, hsq, hz]; exact zip_ok _ hn, hn.trans hzn, ?_, ?_⟩
  · dsimp only
    rw [rfftDeriv_eq]
    simp [derivFactor]
  · intro k k0 k1 ktop
    dsimp only
    rw [rfftDeriv_eq, hze k k0 k1, hN]
    congr 2
    rw [galerkin]
    have : (if k = (u.n : ℤ) - 1 then (starRingEnd ℂ) (u.e k) * (starRingEnd ℂ) (u.e k) else 0) = 0 := by
      split_ifs with h
      · rw [ktop h]; simp
      · rfl
    rw [this, add_zero]

/-- The defect for sizes 2, 6, 10, …: `explicit_terms` with `smooth=True` raises TypeError, because the truncated spectrum has one
mode too many. -/
theorem C48_ks_size_defect (g : Grid 1 ℝ) (u : Vec ℂ) (h4 : g.shape 0 % 4 = 2) (hu : u.n = g.shape 0 / 2 + 1) :
    ksExplicit g true u = .error .type := by
  obtain ⟨x, hx, hxn, -⟩ := paddedIrfft_eq (x := u) (by omega)
  obtain ⟨y, hy, hyn, -⟩ := truncatedRfft_eq (x := ⟨x.n, fun j => x.e j ^ 2⟩) (by show x.n ≠ 0; omega)
  simp only [ksExplicit, if_true, hx, bind, Except.bind, hy]
  have hr : (rfftDeriv g).n = g.shape 0 / 2 + 1 := rfl
  dsimp only at hyn
  unfold Vec.zip
  rw [if_neg (by omega), if_neg (by omega), if_neg (by omega)]

theorem herm_neg (x : ℤ → ℂ) (p : ℤ) : herm x (-p) = (starRingEnd ℂ) (herm x p) := by
  unfold herm
  rcases lt_trichotomy p 0 with h | h | h
  · rw [if_neg (by omega), if_pos (by omega), if_neg (by omega), if_neg (by omega), Complex.conj_conj]
  · subst h
    simp
  · rw [if_neg (by omega), if_neg (by omega), if_neg (by omega), if_pos (by omega), neg_neg]

theorem sum_Ioo_neg (n : ℕ) (f : ℤ → ℂ) :
    ∑ p ∈ Finset.Ioo (-(n : ℤ)) n, f (-p) = ∑ p ∈ Finset.Ioo (-(n : ℤ)) n, f p := by
  refine Finset.sum_bij (fun p _ => -p) ?_ ?_ ?_ ?_
  · intro p hp
    simp only [Finset.mem_Ioo] at hp ⊢
    omega
  · intro a _ b _ h
    simpa using h
  · intro p hp
    simp only [Finset.mem_Ioo] at hp
    exact ⟨-p, by simp only [Finset.mem_Ioo]; omega, by ring⟩
  · intro p _
    rfl

theorem galerkin_conj (n : ℕ) (x : ℤ → ℂ) (k : ℤ) :
    galerkin n (herm x) (herm x) (-k) = (starRingEnd ℂ) (galerkin n (herm x) (herm x) k) := by
  unfold galerkin
  rw [map_sum, ← sum_Ioo_neg]
  refine Finset.sum_congr rfl fun p _ => ?_
  have e : -k - -p = -(k - p) := by ring
  rw [e, abs_neg, herm_neg, herm_neg]
  split_ifs <;> simp

/-- The triad identity: the sum of `k conj(a_k) Σ a_p a_{k-p}` vanishes. -/
theorem triad (n : ℕ) (x : ℤ → ℂ) :
    ∑ k ∈ Finset.Ioo (-(n : ℤ)) n, (k : ℂ) * (herm x (-k) * galerkin n (herm x) (herm x) k) = 0 := by
  set S := Finset.Ioo (-(n : ℤ)) n with hS
  set a := herm x with ha
  set G : ℤ → ℤ → ℤ → ℂ := fun p q r => if p + q + r = 0 then a p * a q * a r else 0 with hG
  have hG1 : ∀ p q r, G p q r = G q p r := by
    intro p q r
    simp only [hG]
    rw [show q + p + r = p + q + r by ring]
    split_ifs
    · ring
    · rfl
  have hG2 : ∀ p q r, G p q r = G p r q := by
    intro p q r
    simp only [hG]
    rw [show p + r + q = p + q + r by ring]
    split_ifs
    · ring
    · rfl
  have hmain : ∑ k ∈ S, (k : ℂ) * (a (-k) * galerkin n a a k) = -∑ r ∈ S, ∑ p ∈ S, ∑ q ∈ S, (r : ℂ) * G p q r := by
    have h1 := sum_Ioo_neg n fun r => ∑ p ∈ S, ∑ q ∈ S, (r : ℂ) * G p q r
    rw [← hS] at h1
    rw [← h1, ← Finset.sum_neg_distrib]
    refine Finset.sum_congr rfl fun k hk => ?_
    rw [← Finset.sum_neg_distrib]
    unfold galerkin
    rw [← hS, Finset.mul_sum, Finset.mul_sum]
    refine Finset.sum_congr rfl fun p hp => ?_
    have hq : ∀ q ∈ S, (((-k : ℤ) : ℂ)) * G p q (-k) = if q = k - p then -((k : ℂ) * (a (-k) * (a p * a (k - p)))) else 0 := by
      intro q _
      simp only [hG]
      by_cases h : q = k - p
      · subst h
        rw [if_pos (by ring), if_pos rfl]
        push_cast
        ring
      · rw [if_neg (by omega), if_neg h, mul_zero]
    rw [Finset.sum_congr rfl hq, Finset.sum_ite_eq']
    have hmem : (k - p ∈ S) ↔ |k - p| < n := by rw [hS, Finset.mem_Ioo, abs_lt]
    simp only [hmem]
    split_ifs
    · ring
    · ring
  rw [hmain]
  have t1 : ∑ r ∈ S, ∑ p ∈ S, ∑ q ∈ S, (r : ℂ) * G p q r = ∑ p ∈ S, ∑ q ∈ S, ∑ r ∈ S, (r : ℂ) * G p q r := by
    rw [Finset.sum_comm]
    exact Finset.sum_congr rfl fun p _ => Finset.sum_comm
  have t2 : ∑ p ∈ S, ∑ q ∈ S, ∑ r ∈ S, (r : ℂ) * G p q r = ∑ p ∈ S, ∑ q ∈ S, ∑ r ∈ S, (q : ℂ) * G p q r := by
    refine Finset.sum_congr rfl fun p _ => ?_
    rw [Finset.sum_comm]
    exact Finset.sum_congr rfl fun r _ => Finset.sum_congr rfl fun q _ => by rw [hG2]
  have t3 : ∑ p ∈ S, ∑ q ∈ S, ∑ r ∈ S, (q : ℂ) * G p q r = ∑ p ∈ S, ∑ q ∈ S, ∑ r ∈ S, (p : ℂ) * G p q r := by
    rw [Finset.sum_comm]
    exact Finset.sum_congr rfl fun q _ => Finset.sum_congr rfl fun p _ => Finset.sum_congr rfl fun r _ => by rw [hG1]
  have t4 : (∑ p ∈ S, ∑ q ∈ S, ∑ r ∈ S, (p : ℂ) * G p q r) + (∑ p ∈ S, ∑ q ∈ S, ∑ r ∈ S, (q : ℂ) * G p q r) +
      (∑ p ∈ S, ∑ q ∈ S, ∑ r ∈ S, (r : ℂ) * G p q r) = 0 := by
    simp only [← Finset.sum_add_distrib, ← add_mul]
    refine Finset.sum_eq_zero fun p _ => Finset.sum_eq_zero fun q _ => Finset.sum_eq_zero fun r _ => ?_
    simp only [hG]
    split_ifs with h
    · have : ((p : ℂ) + q + r) = ((p + q + r : ℤ) : ℂ) := by push_cast; ring
      rw [this, h]
      simp
    · ring
  rw [← t3, ← t2] at t4
  rw [t1]
  have : (3 : ℂ) * ∑ p ∈ S, ∑ q ∈ S, ∑ r ∈ S, (r : ℂ) * G p q r = 0 := by linear_combination t4
  rcases mul_eq_zero.1 this with h | h
  · norm_num at h
  · rw [h, neg_zero]

/-- The rate of change of the energy `Σ u²` of a real signal with half spectrum `u` (last mode absent) under `u_t = z`. -/
noncomputable def energyRate (n : ℕ) (u z : ℤ → ℂ) : ℝ :=
  (u 0).re * (z 0).re + 2 * ∑ k ∈ Finset.Ico (1 : ℤ) n, ((starRingEnd ℂ) (u k) * z k).re

theorem energyRate_galerkin (g : Grid 1 ℝ) (n : ℕ) (hn : 1 ≤ n) (u z : ℤ → ℂ) (c : ℝ) (z0 : z 0 = 0)
    (hz : ∀ k : ℤ, 1 ≤ k → k < n → u k = 0 ∨ z k = c * derivFactor g k * galerkin n (herm u) (herm u) k) : energyRate n u z = 0 := by
  have ht := triad n u
  rw [sum_Ioo_split (by omega)] at ht
  have hlen : ∃ D : ℝ, ∀ k : ℤ, derivFactor g k = ((D : ℂ) * Complex.I) * k := by
    refine ⟨2 * Real.pi / (g.shape 0 * g.step 0), fun k => ?_⟩
    unfold derivFactor twoPiI
    push_cast
    ring
  obtain ⟨D, hD⟩ := hlen
  unfold energyRate
  rw [z0]
  simp only [Complex.zero_re, mul_zero, zero_add]
  have e : ∀ k ∈ Finset.Ico (1 : ℤ) n, ((starRingEnd ℂ) (u k) * z k).re =
      -(c * D) * ((k : ℂ) * (herm u (-k) * galerkin n (herm u) (herm u) k)).im := by
    intro k hk
    have hk' := Finset.mem_Ico.1 hk
    have hh : herm u (-k) = (starRingEnd ℂ) (u k) := by
      rw [herm, if_neg (by omega), if_neg (by omega), neg_neg]
    rw [hh]
    rcases hz k hk'.1 hk'.2 with h | h
    · rw [h]; simp
    · rw [h, hD]
      have : (starRingEnd ℂ) (u k) * (c * ((D : ℂ) * Complex.I * k) * galerkin n (herm u) (herm u) k) =
          ((c * D : ℝ) : ℂ) * (Complex.I * ((k : ℂ) * ((starRingEnd ℂ) (u k) * galerkin n (herm u) (herm u) k))) := by
        push_cast; ring
      rw [this, Complex.re_ofReal_mul, Complex.I_mul_re]
      ring
  rw [Finset.sum_congr rfl e, ← Finset.mul_sum]
  have hpair : ∀ k ∈ Finset.Ico (1 : ℤ) n, (k : ℂ) * (herm u (-k) * galerkin n (herm u) (herm u) k) +
      ((-k : ℤ) : ℂ) * (herm u (- -k) * galerkin n (herm u) (herm u) (-k)) =
      ((2 * ((k : ℂ) * (herm u (-k) * galerkin n (herm u) (herm u) k)).im : ℝ) : ℂ) * Complex.I := by
    intro k _
    have h1 : herm u (- -k) = (starRingEnd ℂ) (herm u (-k)) := herm_neg u (-k)
    rw [h1, galerkin_conj, ← map_mul]
    have h2 : ((-k : ℤ) : ℂ) = -(starRingEnd ℂ) (k : ℂ) := by simp
    rw [h2, neg_mul, ← map_mul, ← sub_eq_add_neg, Complex.sub_conj]
  rw [Finset.sum_congr rfl hpair] at ht
  simp only [Int.cast_zero, zero_mul, zero_add] at ht
  rw [← Finset.sum_mul] at ht
  have h3 := (mul_eq_zero.1 ht).resolve_right Complex.I_ne_zero
  rw [← Complex.ofReal_sum] at h3
  have h4 := Complex.ofReal_eq_zero.1 h3
  rw [← Finset.mul_sum] at h4
  have h5 : ∑ k ∈ Finset.Ico (1 : ℤ) n, ((k : ℂ) * (herm u (-k) * galerkin n (herm u) (herm u) k)).im = 0 := by linarith
  rw [h5, mul_zero, mul_zero]

/-- **C48** The nonlinear term of Kuramoto-Sivashinsky conserves energy: `Σ_k conj(û_k) · explicit_terms(û)_k` over the full spectrum
vanishes, for every spectrum without its last (Nyquist) mode. -/
theorem C48_ks_energy (g : Grid 1 ℝ) (u : Vec ℂ) (h4 : g.shape 0 % 4 = 0) (h0 : g.shape 0 ≠ 0) (hu : u.n = g.shape 0 / 2 + 1)
    (htop : u.e (u.n - 1) = 0) : ∃ z, ksExplicit g true u = .ok z ∧ energyRate u.n u.e z.e = 0 := by
  obtain ⟨z, hz, _, z0, hk⟩ := C48_ks_explicit g u h4 h0 hu
  refine ⟨z, hz, energyRate_galerkin g u.n (by omega) u.e z.e (-(1 / 2) * (1 / g.shape 0)) z0 ?_⟩
  intro k k0 k1
  right
  rw [hk k (by omega) k1 (fun h => by rw [h]; exact htop)]
  push_cast
  ring

/-! ### Burgers -/

theorem galerkin_deriv (g : Grid 1 ℝ) (n : ℕ) (a : ℤ → ℂ) (k : ℤ) :
    galerkin n a (fun p => derivFactor g p * a p) k = 1 / 2 * derivFactor g k * galerkin n a a k := by
  have hD : ∀ p q : ℤ, derivFactor g p + derivFactor g q = derivFactor g (p + q) := by
    intro p q
    unfold derivFactor
    push_cast
    ring
  -- reflect p ↦ k - p
  have href : ∀ f : ℤ → ℤ → ℂ, (∑ p ∈ Finset.Ioo (-(n : ℤ)) n, if |k - p| < n then f p (k - p) else 0) =
      ∑ p ∈ Finset.Ioo (-(n : ℤ)) n, if |k - p| < n then f (k - p) p else 0 := by
    intro f
    rw [← Finset.sum_filter, ← Finset.sum_filter]
    refine Finset.sum_bij (fun p _ => k - p) ?_ ?_ ?_ ?_
    · intro p hp
      simp only [Finset.mem_filter, Finset.mem_Ioo, abs_lt] at hp ⊢
      omega
    · intro a _ b _ h
      omega
    · intro p hp
      simp only [Finset.mem_filter, Finset.mem_Ioo, abs_lt] at hp
      exact ⟨k - p, by simp only [Finset.mem_filter, Finset.mem_Ioo, abs_lt]; omega, by ring⟩
    · intro p _
      simp
  have h1 : galerkin n a (fun p => derivFactor g p * a p) k =
      ∑ p ∈ Finset.Ioo (-(n : ℤ)) n, if |k - p| < n then a p * (derivFactor g (k - p) * a (k - p)) else 0 := rfl
  have h2 := href fun p q => a p * (derivFactor g q * a q)
  have h3 : (2 : ℂ) * galerkin n a (fun p => derivFactor g p * a p) k = derivFactor g k * galerkin n a a k := by
    have : galerkin n a (fun p => derivFactor g p * a p) k + galerkin n a (fun p => derivFactor g p * a p) k =
        derivFactor g k * galerkin n a a k := by
      conv_lhs =>
        arg 2
        rw [h1, h2]
      rw [h1, ← Finset.sum_add_distrib]
      unfold galerkin
      rw [Finset.mul_sum]
      refine Finset.sum_congr rfl fun p _ => ?_
      split_ifs
      · have := hD (k - p) p
        rw [sub_add_cancel] at this
        rw [← this]
        ring
      · ring
    rw [← this]; ring
  linear_combination (1 / 2 : ℂ) * h3

theorem herm_deriv (g : Grid 1 ℝ) (u : ℤ → ℂ) (p : ℤ) :
    herm (fun k => derivFactor g k * u k) p = derivFactor g p * herm u p := by
  have hconj : ∀ p : ℤ, (starRingEnd ℂ) (derivFactor g (-p)) = derivFactor g p := by
    intro p
    unfold derivFactor twoPiI
    simp only [map_mul, Complex.conj_ofReal, Complex.conj_I, map_ofNat]
    push_cast
    ring
  unfold herm
  split_ifs with h1 h2
  · subst h1
    simp [derivFactor]
  · rfl
  · rw [map_mul, hconj]

/-- **C48** Burgers' equation (`forcing_module=None`) on every grid whose size is a multiple of 4: the nonlinear term
`-(u u_x)` is the Fourier-Galerkin one, i.e. equal to `-½ (u²)_x`, in every mode below the last; the time advances at rate 1. -/
theorem C48_burgers_explicit (g : Grid 1 ℝ) (u : Vec ℂ) (t : ℝ) (h4 : g.shape 0 % 4 = 0) (h0 : g.shape 0 ≠ 0)
    (hu : u.n = g.shape 0 / 2 + 1) :
    ∃ z, burgersExplicit g burgersNoForcing (u, t) = .ok (z, 1) ∧ z.n = u.n ∧ z.e 0 = 0 ∧
      ∀ k : ℤ, 0 ≤ k → k < u.n - 1 →
        z.e k = -(1 / 2) * derivFactor g k * (1 / (g.shape 0 : ℂ) * galerkin u.n (herm u.e) (herm u.e) k) := by
  have hdn : (rfftDeriv g).n = u.n := hu.symm
  obtain ⟨x, y, z, hx, hy, hxy, hz, hzn, hze⟩ :=
    C46_dealias u ⟨(rfftDeriv g).n, fun k => derivFactor g k * u.e k⟩ hdn (by omega) (by omega)
  have hN : (2 * ((u.n : ℂ) - 1)) = g.shape 0 := by
    have : 2 * (u.n - 1) = g.shape 0 := by omega
    rw [← this]
    push_cast [Nat.cast_sub (by omega : 1 ≤ u.n)]
    ring
  have hf : rfft1 (burgersNoForcing t) = .ok ⟨1, fun _ => 0⟩ := by
    unfold rfft1
    rw [if_neg (by show (1 : ℕ) ≠ 0; decide)]
    have e1 : (burgersNoForcing t).n / 2 + 1 = 1 := by show 1 / 2 + 1 = 1; norm_num
    have e2 : (fft1 (burgersNoForcing t).n fun j => ((burgersNoForcing t).e j : ℂ)) = fun _ => 0 := by
      funext k
      simp [fft1, burgersNoForcing]
    rw [e1, e2]
  have hzip : Vec.zip (fun a b : ℂ => a + -b) (⟨1, fun _ => 0⟩ : Vec ℂ) z = .ok ⟨z.n, fun k => -z.e k⟩ := by
    unfold Vec.zip
    rw [if_neg (by rw [hzn]; show 1 ≠ u.n; omega), if_pos rfl]
    simp
  have hmain : burgersExplicit g burgersNoForcing (u, t) = .ok (⟨z.n, fun k => -z.e k⟩, 1) := by
    unfold burgersExplicit
    have e1 : Vec.zip (· * ·) (rfftDeriv g) u = .ok ⟨(rfftDeriv g).n, fun k => derivFactor g k * u.e k⟩ := zip_ok _ hdn
    have e2 : Vec.zip (fun x1 x2 => x1 * x2) x y = .ok ⟨x.n, fun j => x.e j * y.e j⟩ := zip_ok _ hxy
    simp only [e1, hf, hx, hy, e2, hz, hzip, bind, Except.bind, pure, Except.pure]
  have hent : ∀ k : ℤ, 0 ≤ k → k < u.n - 1 →
        -z.e k = -(1 / 2) * derivFactor g k * (1 / (g.shape 0 : ℂ) * galerkin u.n (herm u.e) (herm u.e) k) := by
    intro k k0 k1
    rw [hze k k0 (by omega), if_neg (by omega), add_zero, hN]
    simp only [herm_deriv]
    have := galerkin_deriv g u.n (herm u.e) k
    unfold galerkin at this ⊢
    rw [this]
    ring
  refine ⟨_, hmain, hzn, ?_, hent⟩
  have := hent 0 le_rfl (by omega)
  dsimp only
  rw [this]
  simp [derivFactor]

/-- **C48** The nonlinear term of Burgers' equation conserves the energy of every spectrum without its last mode. -/
theorem C48_burgers_energy (g : Grid 1 ℝ) (u : Vec ℂ) (t : ℝ) (h4 : g.shape 0 % 4 = 0) (h0 : g.shape 0 ≠ 0)
    (hu : u.n = g.shape 0 / 2 + 1) (htop : u.e (u.n - 1) = 0) :
    ∃ z, burgersExplicit g burgersNoForcing (u, t) = .ok (z, 1) ∧ energyRate u.n u.e z.e = 0 := by
  obtain ⟨z, hz, _, z0, hk⟩ := C48_burgers_explicit g u t h4 h0 hu
  refine ⟨z, hz, energyRate_galerkin g u.n (by omega) u.e z.e (-(1 / 2) * (1 / g.shape 0)) z0 ?_⟩
  intro k k0 k1
  by_cases h : k < u.n - 1
  · right
    rw [hk k (by omega) h]
    push_cast
    ring
  · left
    have : k = u.n - 1 := by omega
    rw [this, htop]

/-! ### Navier-Stokes -/

/-- The finding about `NavierStokes2D.smooth`: `smooth=False` filters the advection exactly as `smooth=True` does. -/
theorem C48_ns_smooth_false_defect (g : Grid 2 ℝ) (w : NArr 2 ℂ) (f : Option (NArr 2 ℝ → NArr 2 ℝ → NArr 2 ℝ × NArr 2 ℝ)) :
    nsExplicit g (some false) f w = nsExplicit g (some true) f w := rfl

/-- **C48** Unforced Navier-Stokes: the explicit term has no content above the 2/3 cutoff (see `C46_brick_wall_cutoff`). -/
theorem C48_ns_filtered (g : Grid 2 ℝ) (s : Bool) (w z : NArr 2 ℂ) (h : nsExplicit g (some s) none w = .ok z) (r c : ℤ)
    (hn : 2 ≤ g.shape 0) (hr0 : 0 ≤ r) (hr : r < g.shape 0)
    (hk : 2 * (g.shape 0 : ℤ) + 3 < 6 * |centred (g.shape 0) r| ∨ 2 * ((g.shape 1 / 2 + 1 : ℕ) : ℤ) ≤ 3 * c) : z.data ![r, c] = 0 := by
  have hb : brickWallFilter (g.shape 0) (g.shape 1) r c = 0 := by
    by_contra hne
    have := C46_brick_wall_cutoff (g.shape 0) (g.shape 1) r c hn hr0 hr hne
    omega
  unfold nsExplicit nsAdvection at h
  by_cases h1 : w.shape ≠ rfftShape2 g
  · rw [if_pos h1] at h
    exact absurd h (by simp [bind, Except.bind])
  · rw [if_neg h1] at h
    dsimp only [bind, Except.bind] at h
    split_ifs at h with h2
    · simp only [pure, Except.pure] at h
      injection h with h
      subst h
      simp [hb]

/-! ### Nonlinear Schrödinger -/

theorem sum_centred {n : ℕ} (hn : n ≠ 0) (h : ℤ → ℤ → ℂ) :
    ∑ k ∈ Finset.Ico (0 : ℤ) n, h k (centred n k) = ∑ p ∈ Finset.Ico (-((n / 2 : ℕ) : ℤ)) (n - (n / 2 : ℕ)), h (p % n) p := by
  refine Finset.sum_bij (fun k _ => centred n k) ?_ ?_ ?_ ?_
  · intro k _
    exact Finset.mem_Ico.2 (centred_bounds hn k)
  · intro a ha b hb hab
    have ha' := Finset.mem_Ico.1 ha
    have hb' := Finset.mem_Ico.1 hb
    have := congrArg (· % (n : ℤ)) hab
    simp only [centred_emod] at this
    rwa [Int.emod_eq_of_lt ha'.1 ha'.2, Int.emod_eq_of_lt hb'.1 hb'.2] at this
  · intro p hp
    have hp' := Finset.mem_Ico.1 hp
    refine ⟨p % n, Finset.mem_Ico.2 ⟨Int.emod_nonneg _ (by omega), Int.emod_lt_of_pos _ (by omega)⟩, ?_⟩
    unfold centred
    rw [Int.add_emod, Int.emod_emod_of_dvd _ (dvd_refl _), ← Int.add_emod, Int.emod_eq_of_lt (by omega) (by omega)]
    ring
  · intro k hk
    have hk' := Finset.mem_Ico.1 hk
    rw [centred_emod, Int.emod_eq_of_lt hk'.1 hk'.2]

theorem fftKernel_eq_conj_wave (M : ℕ) (j k : ℤ) : fftKernel M j k = (starRingEnd ℂ) (wave M k j) := by
  have h := wave_mul_fft M 0 k j
  rw [wave_zero, one_mul, zero_sub, wave_neg] at h
  exact h

/-- Pairing a spectrum with the transform of `g`: the sum over the grid. -/
theorem pair_fft (M : ℕ) (S : Finset ℤ) (c : ℤ → ℂ) (f : ℤ → ℂ) :
    ∑ p ∈ S, (starRingEnd ℂ) (c p) * fft1 M f p =
      ∑ j ∈ Finset.Ico (0 : ℤ) M, f j * (starRingEnd ℂ) (∑ p ∈ S, c p * wave M p j) := by
  unfold fft1
  simp only [Finset.mul_sum, map_sum, map_mul]
  rw [Finset.sum_comm]
  refine Finset.sum_congr rfl fun j _ => Finset.sum_congr rfl fun p _ => ?_
  rw [fftKernel_eq_conj_wave]
  ring

/-- **C48** Nonlinear Schrödinger: the nonlinear term conserves the mass `Σ |ψ̂|²` exactly, with or without smoothing, on every grid
of even size: `Re Σ_k conj(ψ̂_k) explicit_terms(ψ̂)_k = 0`. -/
theorem C48_nls_mass (g : Grid 1 ℝ) (smooth : Bool) (u : Vec ℂ) (he : g.shape 0 % 2 = 0) (h0 : g.shape 0 ≠ 0) (hu : u.n = g.shape 0) :
    ∃ z, nlsExplicit g smooth u = .ok z ∧ z.n = u.n ∧
      (∑ k ∈ Finset.Ico (0 : ℤ) u.n, (starRingEnd ℂ) (u.e k) * z.e k).re = 0 := by
  have hun : u.n ≠ 0 := by omega
  -- the common end of the two cases
  have hfin : ∀ (M : ℕ) (a : ℝ) (psi : ℤ → ℂ), (-(1 / 2 : ℂ) * (a * ∑ j ∈ Finset.Ico (0 : ℤ) M,
      Complex.I * psi j * ((‖psi j‖ ^ 2 : ℝ) : ℂ) * (starRingEnd ℂ) (psi j))).re = 0 := by
    intro M a psi
    have e : ∀ j ∈ Finset.Ico (0 : ℤ) M, Complex.I * psi j * ((‖psi j‖ ^ 2 : ℝ) : ℂ) * (starRingEnd ℂ) (psi j) =
        Complex.I * ((‖psi j‖ ^ 4 : ℝ) : ℂ) := by
      intro j _
      have := Complex.mul_conj' (psi j)
      push_cast
      linear_combination Complex.I * (‖psi j‖ : ℂ) ^ 2 * this
    rw [Finset.sum_congr rfl e, ← Finset.mul_sum, ← Complex.ofReal_sum]
    have : (-(1 / 2 : ℂ) * (a * (Complex.I * ((∑ j ∈ Finset.Ico (0 : ℤ) M, ‖psi j‖ ^ 4 : ℝ) : ℂ)))) =
        ((-(1 / 2) * a * ∑ j ∈ Finset.Ico (0 : ℤ) M, ‖psi j‖ ^ 4 : ℝ) : ℂ) * Complex.I := by
      push_cast; ring
    rw [this, Complex.re_ofReal_mul, Complex.I_re, mul_zero]
  cases smooth with
  | true =>
      obtain ⟨psi, hpsi, hpn, hpe⟩ := paddedIfft2x_eq hun
      obtain ⟨r, hr, hrn, hre⟩ := truncatedFft2x_eq
        (u := ⟨psi.n, fun j => Complex.I * psi.e j * ((‖psi.e j‖ ^ 2 : ℝ) : ℂ)⟩) (n := u.n) (by omega) hpn
      refine ⟨⟨r.n, fun k => -r.e k / 2⟩, ?_, hrn, ?_⟩
      · unfold nlsExplicit
        simp only [he, ne_eq, not_true_eq_false, if_false, if_true, bind, Except.bind, pure, Except.pure, hpsi, hr]
      · have hM : (psi.n : ℂ) ≠ 0 := Nat.cast_ne_zero.2 (by omega)
        dsimp only
        have e1 : ∑ k ∈ Finset.Ico (0 : ℤ) u.n, (starRingEnd ℂ) (u.e k) * (-r.e k / 2) =
            ∑ k ∈ Finset.Ico (0 : ℤ) u.n, -(1 / 4 : ℂ) * ((starRingEnd ℂ) (u.e k) *
              fft1 psi.n (fun j => Complex.I * psi.e j * ((‖psi.e j‖ ^ 2 : ℝ) : ℂ)) (centred u.n k)) := by
          refine Finset.sum_congr rfl fun k hk => ?_
          have hk' := Finset.mem_Ico.1 hk
          rw [hre k hk'.1 hk'.2]
          dsimp only
          ring
        rw [e1, ← Finset.mul_sum, sum_centred hun (fun k p => (starRingEnd ℂ) (u.e k) *
          fft1 psi.n (fun j => Complex.I * psi.e j * ((‖psi.e j‖ ^ 2 : ℝ) : ℂ)) p),
          pair_fft psi.n _ (fun p => u.e (p % u.n))]
        have e2 : ∀ j ∈ Finset.Ico (0 : ℤ) psi.n, Complex.I * psi.e j * ((‖psi.e j‖ ^ 2 : ℝ) : ℂ) *
            (starRingEnd ℂ) (∑ p ∈ Finset.Ico (-((u.n / 2 : ℕ) : ℤ)) (u.n - (u.n / 2 : ℕ)), u.e (p % u.n) * wave psi.n p j) =
            (psi.n / 2 : ℂ) * (Complex.I * psi.e j * ((‖psi.e j‖ ^ 2 : ℝ) : ℂ) * (starRingEnd ℂ) (psi.e j)) := by
          intro j _
          have : (∑ p ∈ Finset.Ico (-((u.n / 2 : ℕ) : ℤ)) (u.n - (u.n / 2 : ℕ)), u.e (p % u.n) * wave psi.n p j) =
              (psi.n / 2 : ℂ) * psi.e j := by
            rw [hpe j, Finset.mul_sum]
            refine Finset.sum_congr rfl fun p _ => ?_
            field_simp
          rw [this, map_mul, map_div₀, map_natCast, map_ofNat]
          ring
        rw [Finset.sum_congr rfl e2, ← Finset.mul_sum]
        have := hfin psi.n (psi.n / 4) psi.e
        rw [← this]
        congr 1
        push_cast
        ring
  | false =>
      refine ⟨⟨u.n, fun k => -fft1 u.n (fun j => Complex.I * ifft1 u.n u.e j * ((‖ifft1 u.n u.e j‖ ^ 2 : ℝ) : ℂ)) k / 2⟩, ?_, rfl, ?_⟩
      · unfold nlsExplicit
        simp only [he, ne_eq, not_true_eq_false, if_false, Bool.false_eq_true, bind, Except.bind, pure, Except.pure, hun]
      · have hM : (u.n : ℂ) ≠ 0 := Nat.cast_ne_zero.2 hun
        dsimp only
        have e1 : ∑ k ∈ Finset.Ico (0 : ℤ) u.n, (starRingEnd ℂ) (u.e k) *
            (-fft1 u.n (fun j => Complex.I * ifft1 u.n u.e j * ((‖ifft1 u.n u.e j‖ ^ 2 : ℝ) : ℂ)) k / 2) =
            -(1 / 2 : ℂ) * ∑ k ∈ Finset.Ico (0 : ℤ) u.n, (starRingEnd ℂ) (u.e k) *
              fft1 u.n (fun j => Complex.I * ifft1 u.n u.e j * ((‖ifft1 u.n u.e j‖ ^ 2 : ℝ) : ℂ)) k := by
          rw [Finset.mul_sum]
          exact Finset.sum_congr rfl fun k _ => by ring
        rw [e1, pair_fft]
        have e2 : ∀ j ∈ Finset.Ico (0 : ℤ) u.n, Complex.I * ifft1 u.n u.e j * ((‖ifft1 u.n u.e j‖ ^ 2 : ℝ) : ℂ) *
            (starRingEnd ℂ) (∑ p ∈ Finset.Ico (0 : ℤ) u.n, u.e p * wave u.n p j) =
            (u.n : ℂ) * (Complex.I * ifft1 u.n u.e j * ((‖ifft1 u.n u.e j‖ ^ 2 : ℝ) : ℂ) * (starRingEnd ℂ) (ifft1 u.n u.e j)) := by
          intro j _
          have : (∑ p ∈ Finset.Ico (0 : ℤ) u.n, u.e p * wave u.n p j) = (u.n : ℂ) * ifft1 u.n u.e j := by
            unfold ifft1
            rw [Finset.mul_sum]
            refine Finset.sum_congr rfl fun p _ => ?_
            unfold ifftKernel wave
            field_simp
          rw [this, map_mul, map_natCast]
          ring
        rw [Finset.sum_congr rfl e2, ← Finset.mul_sum]
        have := hfin u.n u.n (ifft1 u.n u.e)
        rw [← this]
        push_cast
        rfl

/-- **C48** The linear term of the Schrödinger equation is skew: it conserves the mass mode by mode. -/
theorem C48_nls_implicit_mass (g : Grid 1 ℝ) (u : Vec ℂ) (hu : u.n = g.shape 0) :
    ∃ z, nlsImplicit g u = .ok z ∧ ∀ k : ℤ, ((starRingEnd ℂ) (u.e k) * z.e k).re = 0 := by
  refine ⟨_, zip_ok _ (by exact hu), fun k => ?_⟩
  dsimp only [fftDeriv]
  rw [mul_pow, twoPiI_sq]
  have : (starRingEnd ℂ) (u.e k) * (-Complex.I * u.e k * (((-(2 * Real.pi) ^ 2 : ℝ) : ℂ) * (fftfreq (g.shape 0) (g.step 0) k : ℝ) ^ 2) / 8) =
      ((‖u.e k‖ ^ 2 * (2 * Real.pi) ^ 2 * (fftfreq (g.shape 0) (g.step 0) k) ^ 2 / 8 : ℝ) : ℂ) * Complex.I := by
    have h := Complex.mul_conj' (u.e k)
    push_cast
    linear_combination (Complex.I * (2 * Real.pi) ^ 2 * (fftfreq (g.shape 0) (g.step 0) k : ℂ) ^ 2 / 8) * h
  rw [this, Complex.re_ofReal_mul, Complex.I_re, mul_zero]

/-- Non-vacuity: an 8-point grid satisfies the hypotheses of the Kuramoto-Sivashinsky, Burgers and Schrödinger theorems, a
spectrum with its last mode absent those of the energy theorems. -/
example : ∃ (g : Grid 1 ℝ) (u : Vec ℂ), g.Proper ∧ g.shape 0 % 4 = 0 ∧ g.shape 0 ≠ 0 ∧ u.n = g.shape 0 / 2 + 1 ∧
    u.e (u.n - 1) = 0 ∧ u.e 1 = 1 :=
  ⟨⟨fun _ => 8, fun _ => (0, 1)⟩, ⟨5, fun k => if k = 1 then 1 else 0⟩, fun _ => ⟨by show (8 : ℕ) ≠ 0; decide, by norm_num⟩,
    by decide, by decide, by decide, by norm_num, by norm_num⟩

/-- Non-vacuity of `C48_ns_solve`. -/
example : (⟨![4, 3], fun _ => 1⟩ : NArr 2 ℂ).shape = rfftShape2 (⟨fun _ => 4, fun _ => (0, 1)⟩ : Grid 2 ℝ) := rfl

end JaxCfd
