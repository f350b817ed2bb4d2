import Verif.Model.SpectralForcings
import Verif.Props.SpectralEquations
import Mathlib.Data.List.GetD

/-!
# C64: the random forcing of the forced Burgers equation
-/

namespace JaxCfd

/-- What the generators of `random_forcing_module` produce: wavenumbers among 3, 4, 5, 6, amplitudes in [-1/2, 1/2]. -/
def RandomWaves.Drawn {n : ℕ} (w : RandomWaves n) : Prop := ∀ i, w.kx i ∈ ({3, 4, 5, 6} : Finset ℤ) ∧ |w.amplitude i| ≤ 1 / 2

/-- **C64.** `random_forcing_module` at time `t` and grid point `x_j = x₀ + j h` is `Σᵢ aᵢ sin(ωᵢ t - kᵢ x_j + φᵢ)`, at most `n / 2` in
absolute value. -/
theorem C64_random_forcing {n : ℕ} (g : Grid 1 ℝ) (w : RandomWaves n) :
    ∃ f, randomForcing g w = .ok f ∧ ∀ t, (f t).n = g.shape 0 ∧
      (∀ j : ℤ, 0 ≤ j → j < g.shape 0 → (f t).e j = ∑ i, w.amplitude i * Real.sin (w.omega i * t - w.kx i * ((g.domain 0).1 + j * g.step 0) + w.phi i)) ∧
      (w.Drawn → ∀ j : ℤ, |(f t).e j| ≤ n / 2) := by
  have ha : g.axes (some [0]) = .ok fun a => (List.range (g.shape a)).map fun i : ℕ => (g.domain a).1 + ((i : ℝ) + ([0] : List ℝ).getD a 0) * g.step a := by
    unfold Grid.axes
    rw [if_neg (by simp)]
    rfl
  unfold randomForcing
  rw [ha]
  refine ⟨_, rfl, fun t => ⟨by simp, fun j h0 h1 => ?_, fun hd j => ?_⟩⟩
  · obtain ⟨m, rfl⟩ := Int.eq_ofNat_of_zero_le h0
    have hm : m < g.shape 0 := by omega
    dsimp only
    refine Finset.sum_congr rfl fun i _ => ?_
    have e : ((List.range (g.shape 0)).map fun i : ℕ => (g.domain 0).1 + ((i : ℝ) + ([0] : List ℝ).getD (0 : Fin 1) 0) * g.step 0).getD (m : ℤ).toNat 0 =
        (g.domain 0).1 + m * g.step 0 := by
      rw [Int.toNat_natCast, List.getD_eq_getElem _ _ (by simpa using hm), List.getElem_map, List.getElem_range]
      simp
    rw [e]
    push_cast
    ring_nf
  · dsimp only
    refine (Finset.abs_sum_le_sum_abs _ _).trans ?_
    calc _ ≤ ∑ _i : Fin n, (1 / 2 : ℝ) := Finset.sum_le_sum fun i _ => by
          rw [abs_mul]
          calc _ ≤ (1 / 2 : ℝ) * 1 := mul_le_mul (hd i).2 (Real.abs_sin_le_one _) (abs_nonneg _) (by norm_num)
            _ = 1 / 2 := mul_one _
      _ = n / 2 := by
          rw [Finset.sum_const, Finset.card_univ, Fintype.card_fin, nsmul_eq_mul]; ring

/-- A sine wave on the grid as a sum of two exponentials. -/
theorem sin_wave {N : ℕ} (hN : N ≠ 0) (θ h : ℝ) (hh : N * h = 2 * Real.pi) (k j : ℤ) :
    (Real.sin (θ - k * (j * h)) : ℂ) =
      (-Complex.I / 2 * Complex.exp (θ * Complex.I)) * wave N (-k) j + (Complex.I / 2 * Complex.exp (-(θ * Complex.I))) * wave N k j := by
  have hNC : (N : ℂ) ≠ 0 := by exact_mod_cast hN
  have hhC : (h : ℂ) = 2 * Real.pi / N := by
    rw [eq_div_iff hNC]
    exact_mod_cast (mul_comm _ _).trans hh
  have e1 : Complex.exp (θ * Complex.I) * wave N (-k) j = Complex.exp ((θ - k * (j * h)) * Complex.I) := by
    unfold wave
    rw [← Complex.exp_add, hhC]
    congr 1
    push_cast
    field_simp
    ring
  have e2 : Complex.exp (-(θ * Complex.I)) * wave N k j = Complex.exp (-((θ - k * (j * h)) * Complex.I)) := by
    unfold wave
    rw [← Complex.exp_add, hhC]
    congr 1
    field_simp
    ring
  rw [mul_assoc, mul_assoc, e1, e2]
  push_cast
  rw [Complex.sin, ← neg_mul]
  ring

/-- **C64.** On a grid of length 2π the forcing only contains the drawn wavenumbers: its transform vanishes at every mode `m` that is not
congruent to one of them (up to sign) modulo the number of points.  In particular, with wavenumbers 3 to 6, at every other mode of a grid of
at least 13 points, and it has mean zero on every grid of at least 7 points. -/
theorem C64_random_forcing_modes {n : ℕ} (g : Grid 1 ℝ) (w : RandomWaves n) (hd : w.Drawn) (hL : g.shape 0 * g.step 0 = 2 * Real.pi)
    (f : ℝ → Vec ℝ) (hf : randomForcing g w = .ok f) (t : ℝ) :
    (7 ≤ g.shape 0 → ∑ j ∈ Finset.Ico (0 : ℤ) (g.shape 0), (f t).e j = 0) ∧
    (7 ≤ g.shape 0 → ∃ F, rfft1 (f t) = .ok F ∧ F.n = g.shape 0 / 2 + 1 ∧ F.e 0 = 0 ∧
      (13 ≤ g.shape 0 → ∀ m : ℤ, 0 ≤ m → m < F.n → m ∉ ({3, 4, 5, 6} : Finset ℤ) → F.e m = 0)) := by
  obtain ⟨f', hf', hv⟩ := C64_random_forcing g w
  rw [hf'] at hf
  injection hf with hf
  subst hf
  obtain ⟨hn, he, -⟩ := hv t
  have hmode : 7 ≤ g.shape 0 → ∀ m : ℤ, (∀ i, ¬ (g.shape 0 : ℤ) ∣ -w.kx i - m ∧ ¬ (g.shape 0 : ℤ) ∣ w.kx i - m) →
      fft1 (g.shape 0) (fun j => ((f' t).e j : ℂ)) m = 0 := by
    intro h7 m hm
    have hN : g.shape 0 ≠ 0 := by omega
    have e : fft1 (g.shape 0) (fun j => ((f' t).e j : ℂ)) m = fft1 (g.shape 0) (fun j => ∑ p : Fin n × Bool,
        (if p.2 then w.amplitude p.1 * (-Complex.I / 2 * Complex.exp ((w.omega p.1 * t - w.kx p.1 * (g.domain 0).1 + w.phi p.1 : ℝ) * Complex.I)) else
          w.amplitude p.1 * (Complex.I / 2 * Complex.exp (-((w.omega p.1 * t - w.kx p.1 * (g.domain 0).1 + w.phi p.1 : ℝ) * Complex.I)))) *
          wave (g.shape 0) (if p.2 then -w.kx p.1 else w.kx p.1) j) m := by
      unfold fft1
      refine Finset.sum_congr rfl fun j hj => ?_
      rw [Finset.mem_Ico] at hj
      beta_reduce
      rw [he j hj.1 hj.2, Fintype.sum_prod_type]
      congr 1
      push_cast
      refine Finset.sum_congr rfl fun i _ => ?_
      have h := sin_wave hN (w.omega i * t - w.kx i * (g.domain 0).1 + w.phi i) (g.step 0) hL (w.kx i) j
      have ea : w.omega i * t - w.kx i * ((g.domain 0).1 + j * g.step 0) + w.phi i = w.omega i * t - w.kx i * (g.domain 0).1 + w.phi i - w.kx i * (j * g.step 0) := by ring
      have h' : Complex.sin ((w.omega i : ℂ) * t - w.kx i * ((g.domain 0).1 + j * g.step 0) + w.phi i) =
          ((Real.sin (w.omega i * t - w.kx i * (g.domain 0).1 + w.phi i - w.kx i * (j * g.step 0)) : ℝ) : ℂ) := by
        rw [← ea]
        push_cast
        rfl
      rw [Fintype.sum_bool, h', h]
      push_cast
      simp only [if_true, Bool.false_eq_true, if_false]
      ring
    rw [e, fft1_trig hN]
    refine Finset.sum_eq_zero fun p _ => if_neg ?_
    cases p.2
    · exact (hm p.1).2
    · exact (hm p.1).1
  have hmean : 7 ≤ g.shape 0 → fft1 (g.shape 0) (fun j => ((f' t).e j : ℂ)) 0 = 0 := fun h7 => by
    refine hmode h7 0 fun i => ?_
    have hk := (hd i).1
    simp only [Finset.mem_insert, Finset.mem_singleton] at hk
    rw [sub_zero, sub_zero, Int.dvd_neg]
    have : ¬ (g.shape 0 : ℤ) ∣ w.kx i := fun h => by
      have := Int.le_of_dvd (by omega) h
      omega
    exact ⟨this, this⟩
  refine ⟨fun h7 => ?_, fun h7 => ?_⟩
  · have h := hmean h7
    have e : fft1 (g.shape 0) (fun j => ((f' t).e j : ℂ)) 0 = ((∑ j ∈ Finset.Ico (0 : ℤ) (g.shape 0), (f' t).e j : ℝ) : ℂ) := by
      unfold fft1 fftKernel
      push_cast
      refine Finset.sum_congr rfl fun j _ => ?_
      simp
    rw [e] at h
    exact_mod_cast h
  · refine ⟨⟨(f' t).n / 2 + 1, fft1 (f' t).n fun j => ((f' t).e j : ℂ)⟩, if_neg (by omega), by rw [hn], ?_, ?_⟩
    · dsimp only
      rw [hn]
      exact hmean h7
    · intro h13 m h0 h1 h2
      dsimp only at h1 ⊢
      rw [hn] at h1 ⊢
      refine hmode h7 m fun i => ?_
      have hk := (hd i).1
      simp only [Finset.mem_insert, Finset.mem_singleton] at hk h2
      constructor
      · intro h
        rw [← Int.dvd_neg] at h
        have := Int.le_of_dvd (by omega) h
        omega
      · intro h
        have hne : w.kx i - m ≠ 0 := by omega
        have := Int.le_of_dvd (abs_pos.2 hne) ((dvd_abs _ _).2 h)
        rcases abs_cases (w.kx i - m) with ⟨e, -⟩ | ⟨e, -⟩ <;> rw [e] at this <;> omega

/-- **C64.** `ForcedBurgersEquation` with any forcing on the grid: the explicit term is the transform of the forcing plus the explicit term of
the unforced equation, mode by mode. -/
theorem C64_forced_burgers (g : Grid 1 ℝ) (u : Vec ℂ) (t : ℝ) (h4 : g.shape 0 % 4 = 0) (h0 : g.shape 0 ≠ 0) (hu : u.n = g.shape 0 / 2 + 1)
    (f : ℝ → Vec ℝ) (hf : (f t).n = g.shape 0) :
    ∃ z z₀ F, burgersExplicit g f (u, t) = .ok (z, 1) ∧ burgersExplicit g burgersNoForcing (u, t) = .ok (z₀, 1) ∧ rfft1 (f t) = .ok F ∧
      z.n = u.n ∧ ∀ k : ℤ, z.e k = F.e k + z₀.e k := by
  have hdn : (rfftDeriv g).n = u.n := hu.symm
  obtain ⟨x, y, z, hx, hy, hxy, hz, hzn, -⟩ :=
    C46_dealias u ⟨(rfftDeriv g).n, fun k => derivFactor g k * u.e k⟩ hdn (by omega) (by omega)
  have hf0 : rfft1 (burgersNoForcing t) = .ok ⟨1, fun _ => 0⟩ := by
    unfold rfft1
    rw [if_neg (by show (1 : ℕ) ≠ 0; decide)]
    have e1 : (burgersNoForcing t).n / 2 + 1 = 1 := by show 1 / 2 + 1 = 1; norm_num
    have e2 : (fft1 (burgersNoForcing t).n fun j => ((burgersNoForcing t).e j : ℂ)) = fun _ => 0 := by
      funext k
      simp [fft1, burgersNoForcing]
    rw [e1, e2]
  have hzip : Vec.zip (fun a b : ℂ => a + -b) (⟨1, fun _ => 0⟩ : Vec ℂ) z = .ok ⟨z.n, fun k => -z.e k⟩ := by
    unfold Vec.zip
    rw [if_neg (by rw [hzn]; show 1 ≠ u.n; omega), if_pos rfl]
    simp
  have hf1 : rfft1 (f t) = .ok ⟨(f t).n / 2 + 1, fft1 (f t).n fun j => ((f t).e j : ℂ)⟩ := if_neg (by omega)
  have hFn : (f t).n / 2 + 1 = z.n := by rw [hf, hzn, hu]
  have hzip1 : Vec.zip (fun a b : ℂ => a + -b) ⟨(f t).n / 2 + 1, fft1 (f t).n fun j => ((f t).e j : ℂ)⟩ z =
      .ok ⟨(f t).n / 2 + 1, fun k => fft1 (f t).n (fun j => ((f t).e j : ℂ)) k + -z.e k⟩ := zip_ok _ hFn
  have e1 : Vec.zip (· * ·) (rfftDeriv g) u = .ok ⟨(rfftDeriv g).n, fun k => derivFactor g k * u.e k⟩ := zip_ok _ hdn
  have e2 : Vec.zip (fun x1 x2 => x1 * x2) x y = .ok ⟨x.n, fun j => x.e j * y.e j⟩ := zip_ok _ hxy
  refine ⟨⟨(f t).n / 2 + 1, fun k => fft1 (f t).n (fun j => ((f t).e j : ℂ)) k + -z.e k⟩, ⟨z.n, fun k => -z.e k⟩, _, ?_, ?_, hf1, hFn.trans hzn, fun k => rfl⟩
  · unfold burgersExplicit
    simp only [e1, hf1, hx, hy, e2, hz, hzip1, bind, Except.bind, pure, Except.pure]
  · unfold burgersExplicit
    simp only [e1, hf0, hx, hy, e2, hz, hzip, bind, Except.bind, pure, Except.pure]

/-- **C64.** With the random forcing the mean of the solution never changes: the explicit term has no mean mode, at every state and time. -/
theorem C64_forced_burgers_mean {n : ℕ} (g : Grid 1 ℝ) (u : Vec ℂ) (t : ℝ) (h4 : g.shape 0 % 4 = 0) (h7 : 7 ≤ g.shape 0) (hu : u.n = g.shape 0 / 2 + 1)
    (w : RandomWaves n) (hd : w.Drawn) (hL : g.shape 0 * g.step 0 = 2 * Real.pi) (f : ℝ → Vec ℝ) (hf : randomForcing g w = .ok f) :
    ∃ z, burgersExplicit g f (u, t) = .ok (z, 1) ∧ z.e 0 = 0 := by
  obtain ⟨f', hf', hv⟩ := C64_random_forcing g w
  have : f' = f := Except.ok.inj (hf'.symm.trans hf)
  subst this
  obtain ⟨z, z₀, F, hz, hz₀, hF, -, hk⟩ := C64_forced_burgers g u t h4 (by omega) hu f' (hv t).1
  obtain ⟨F', hF', -, hF0, -⟩ := (C64_random_forcing_modes g w hd hL f' hf t).2 h7
  obtain ⟨z', hz', -, hz0, -⟩ := C48_burgers_explicit g u t h4 (by omega) hu
  have eF : F' = F := Except.ok.inj (hF'.symm.trans hF)
  have ez : (z', (1 : ℝ)) = (z₀, 1) := Except.ok.inj (hz'.symm.trans hz₀)
  have ez' : z' = z₀ := congrArg Prod.fst ez
  exact ⟨z, hz, by rw [hk, ← eF, ← ez', hF0, hz0, add_zero]⟩

/-- Non-vacuity: 16 points on [0, 2π), a single wave `½ sin(t/4 - 3 x)`. -/
example : (⟨fun _ => 3, fun _ => 1 / 2, fun _ => 1 / 4, fun _ => 0⟩ : RandomWaves 1).Drawn ∧
    ∃ g : Grid 1 ℝ, g.shape 0 % 4 = 0 ∧ 7 ≤ g.shape 0 ∧ g.shape 0 * g.step 0 = 2 * Real.pi := by
  refine ⟨fun i => ⟨by simp, by norm_num [abs_of_pos]⟩, ⟨fun _ => 16, fun _ => (0, 2 * Real.pi)⟩, by norm_num, by norm_num, ?_⟩
  unfold Grid.step
  push_cast
  ring

end JaxCfd
