import Verif.Lemmas.FastDiag
import Mathlib.Analysis.SpecialFunctions.Complex.Circle
import Mathlib.Algebra.Field.GeomSum
import Mathlib.Algebra.BigOperators.Field
import Mathlib.Analysis.Complex.Basic

/-!
Discrete Fourier transforms: inverse kernels, eigenvalues of circulant matrices, symmetry of the spectrum of real data.
-/

set_option linter.unusedSectionVars false
set_option linter.unusedSimpArgs false

namespace JaxCfd
open Complex

theorem exp_int_period (z : ℤ) : Complex.exp (2 * Real.pi * Complex.I * z) = 1 :=
  Complex.exp_eq_one_iff.2 ⟨z, by ring⟩

theorem fftKernel_add {n : ℕ} (hn : n ≠ 0) (j k : ℤ) : fftKernel n j (k + n) = fftKernel n j k := by
  have hn' : (n : ℂ) ≠ 0 := Nat.cast_ne_zero.2 hn
  have : -(2 * Real.pi * Complex.I * j * ((k + n : ℤ) : ℂ) / n) =
      -(2 * Real.pi * Complex.I * j * k / n) + 2 * Real.pi * Complex.I * ((-j : ℤ) : ℂ) := by
    push_cast; field_simp; ring
  unfold fftKernel
  rw [this, Complex.exp_add, exp_int_period, mul_one]

theorem ifftKernel_add {n : ℕ} (hn : n ≠ 0) (j k : ℤ) : ifftKernel n (j + n) k = ifftKernel n j k := by
  have hn' : (n : ℂ) ≠ 0 := Nat.cast_ne_zero.2 hn
  have : 2 * Real.pi * Complex.I * ((j + n : ℤ) : ℂ) * k / n =
      2 * Real.pi * Complex.I * j * k / n + 2 * Real.pi * Complex.I * k := by
    push_cast; field_simp
  unfold ifftKernel
  rw [this, Complex.exp_add, exp_int_period, mul_one]

theorem fftKernel_conj (n : ℕ) (j k : ℤ) : (starRingEnd ℂ) (fftKernel n j k) = fftKernel n j (-k) := by
  unfold fftKernel
  rw [← Complex.exp_conj]
  congr 1
  simp only [map_neg, map_div₀, map_mul, Complex.conj_ofReal, Complex.conj_I, map_ofNat, map_intCast, map_natCast]
  push_cast
  ring

theorem ifftKernel_conj (n : ℕ) (j k : ℤ) : (starRingEnd ℂ) (ifftKernel n j k) = ifftKernel n (-j) k := by
  unfold ifftKernel
  rw [map_div₀, ← Complex.exp_conj]
  congr 1
  · congr 1
    simp only [map_neg, map_div₀, map_mul, Complex.conj_ofReal, Complex.conj_I, map_ofNat, map_intCast, map_natCast]
    push_cast
    ring
  · simp

/-- Sums of a root of unity. -/
theorem sum_exp {n : ℕ} (hn : n ≠ 0) (m : ℤ) :
    ∑ l ∈ Finset.Ico (0 : ℤ) n, Complex.exp (2 * Real.pi * Complex.I * m * l / n) = if (n : ℤ) ∣ m then (n : ℂ) else 0 := by
  have hn' : (n : ℂ) ≠ 0 := Nat.cast_ne_zero.2 hn
  set z : ℂ := Complex.exp (2 * Real.pi * Complex.I * m / n) with hz
  have h1 : ∀ l : ℕ, Complex.exp (2 * Real.pi * Complex.I * m * ((l : ℤ) : ℂ) / n) = z ^ l := by
    intro l
    rw [hz, ← Complex.exp_nat_mul]
    congr 1
    push_cast; ring
  have h2 : ∑ l ∈ Finset.Ico (0 : ℤ) n, Complex.exp (2 * Real.pi * Complex.I * m * l / n) = ∑ l ∈ Finset.range n, z ^ l := by
    rw [sum_Ico_fin, ← Fin.sum_univ_eq_sum_range]
    exact Finset.sum_congr rfl fun l _ => h1 l
  rw [h2]
  split_ifs with h
  · obtain ⟨c, rfl⟩ := h
    have : z = 1 := by
      rw [hz, ← exp_int_period c]
      congr 1
      push_cast; field_simp
    rw [this]; simp
  · have hne : z ≠ 1 := by
      intro h'
      obtain ⟨c, hc⟩ := Complex.exp_eq_one_iff.1 h'
      apply h
      have hpi : (2 * Real.pi * Complex.I : ℂ) ≠ 0 := Complex.two_pi_I_ne_zero
      have e : (2 * Real.pi * Complex.I : ℂ) * m = (2 * Real.pi * Complex.I) * (c * n) := by
        field_simp at hc
        linear_combination (2 * Real.pi * Complex.I : ℂ) * hc
      have e2 : (m : ℂ) = c * n := mul_left_cancel₀ hpi e
      have e3 : m = c * n := by exact_mod_cast e2
      exact ⟨c, by rw [e3]; ring⟩
    have hzn : z ^ n = 1 := by
      rw [hz, ← Complex.exp_nat_mul, ← exp_int_period m]
      congr 1
      field_simp
    rw [geom_sum_eq hne, hzn, sub_self, zero_div]

theorem dvd_sub_iff {n : ℕ} {j k : ℤ} (h1 : 0 ≤ j) (h2 : j < n) (h3 : 0 ≤ k) (h4 : k < n) :
    (n : ℤ) ∣ k - j ↔ j = k := by
  constructor
  · intro h
    have e : k % n = j % n := Int.emod_eq_emod_iff_emod_sub_eq_zero.2 (Int.emod_eq_zero_of_dvd h)
    rw [Int.emod_eq_of_lt h3 h4, Int.emod_eq_of_lt h1 h2] at e
    exact e.symm
  · intro h; rw [h, sub_self]; exact dvd_zero _

theorem fft_inverse {d : ℕ} (s : Fin d → ℕ) :
    InverseKernels s (fun a => fftKernel (s a)) (fun a => ifftKernel (s a)) := by
  intro a j k h1 h2 h3 h4
  have hn : s a ≠ 0 := by omega
  have hn' : (s a : ℂ) ≠ 0 := Nat.cast_ne_zero.2 hn
  have : ∀ l : ℤ, fftKernel (s a) j l * ifftKernel (s a) l k =
      Complex.exp (2 * Real.pi * Complex.I * ((k - j : ℤ) : ℂ) * l / s a) / s a := by
    intro l
    unfold fftKernel ifftKernel
    rw [← mul_div_assoc, ← Complex.exp_add]
    congr 2
    push_cast; ring
  rw [Finset.sum_congr rfl fun l _ => this l, ← Finset.sum_div, sum_exp hn, if_congr (dvd_sub_iff h1 h2 h3 h4) rfl rfl]
  split_ifs
  · exact div_self hn'
  · exact zero_div _

theorem ifft_inverse {d : ℕ} (s : Fin d → ℕ) :
    InverseKernels s (fun a => ifftKernel (s a)) (fun a => fftKernel (s a)) := by
  intro a j k h1 h2 h3 h4
  have hn : s a ≠ 0 := by omega
  have hn' : (s a : ℂ) ≠ 0 := Nat.cast_ne_zero.2 hn
  have : ∀ l : ℤ, ifftKernel (s a) j l * fftKernel (s a) l k =
      Complex.exp (2 * Real.pi * Complex.I * ((j - k : ℤ) : ℂ) * l / s a) / s a := by
    intro l
    unfold fftKernel ifftKernel
    rw [div_mul_eq_mul_div, ← Complex.exp_add]
    congr 2
    push_cast; ring
  rw [Finset.sum_congr rfl fun l _ => this l, ← Finset.sum_div, sum_exp hn]
  have e : (s a : ℤ) ∣ j - k ↔ j = k := (dvd_sub_iff h3 h4 h1 h2).trans eq_comm
  rw [if_congr e rfl rfl]
  split_ifs
  · exact div_self hn'
  · exact zero_div _

/-- A sum over one period can be reflected and shifted. -/
theorem sum_reflect {n : ℕ} (f : ℤ → ℂ) (hf : ∀ j, f (j + n) = f j) (i : ℤ) :
    ∑ j ∈ Finset.Ico (0 : ℤ) n, f (i - j) = ∑ j ∈ Finset.Ico (0 : ℤ) n, f j := by
  rcases Nat.eq_zero_or_pos n with rfl | hn
  · simp
  have hn' : (n : ℤ) ≠ 0 := by omega
  have hm : ∀ m : ℤ, f (m % n) = f m := by
    have hk : ∀ (c : ℕ) (j : ℤ), f (j + c * n) = f j := by
      intro c
      induction c with
      | zero => intro j; simp
      | succ c ih =>
        intro j
        have : j + ((c + 1 : ℕ) : ℤ) * n = (j + c * n) + n := by push_cast; ring
        rw [this, hf, ih]
    intro m
    rcases Int.le_total 0 (m / n) with h | h
    · conv_rhs => rw [← Int.emod_add_mul_ediv m n]
      obtain ⟨c, hc⟩ := Int.eq_ofNat_of_zero_le h
      rw [hc, mul_comm]; exact (hk c _).symm
    · obtain ⟨c, hc⟩ := Int.eq_ofNat_of_zero_le (Int.neg_nonneg_of_nonpos h)
      have e : m % n = m + c * n := by
        have := Int.emod_add_mul_ediv m n
        have h2 : m / n = -c := by omega
        rw [h2] at this; linarith
      rw [e, hk]
  refine Finset.sum_bij (fun j _ => (i - j) % n) ?_ ?_ ?_ ?_
  · intro j _
    exact Finset.mem_Ico.2 ⟨Int.emod_nonneg _ hn', Int.emod_lt_of_pos _ (by omega)⟩
  · intro a ha b hb h
    rw [Finset.mem_Ico] at ha hb
    have h' := Int.emod_eq_emod_iff_emod_sub_eq_zero.1 h
    have h2 : (n : ℤ) ∣ b - a := by
      have := Int.dvd_of_emod_eq_zero h'
      rwa [show i - a - (i - b) = b - a by ring] at this
    exact (dvd_sub_iff ha.1 ha.2 hb.1 hb.2).1 h2
  · intro j hj
    rw [Finset.mem_Ico] at hj
    refine ⟨(i - j) % n, Finset.mem_Ico.2 ⟨Int.emod_nonneg _ hn', Int.emod_lt_of_pos _ (by omega)⟩, ?_⟩
    rw [Int.sub_emod, Int.emod_emod_of_dvd _ (dvd_refl _), ← Int.sub_emod, show i - (i - j) = j by ring]
    exact Int.emod_eq_of_lt hj.1 hj.2
  · intro j _; exact (hm _).symm


theorem fftKernel_period (n : ℕ) (j k : ℤ) : fftKernel n j (k + n) = fftKernel n j k := by
  rcases Nat.eq_zero_or_pos n with rfl | hn
  · simp
  · exact fftKernel_add (by omega) j k

theorem ifftKernel_period (n : ℕ) (j k : ℤ) : ifftKernel n (j + n) k = ifftKernel n j k := by
  rcases Nat.eq_zero_or_pos n with rfl | hn
  · simp
  · exact ifftKernel_add (by omega) j k

theorem ifftKernel_comm (n : ℕ) (j k : ℤ) : ifftKernel n j k = ifftKernel n k j := by
  unfold ifftKernel
  congr 2
  ring

theorem fft1_period (n : ℕ) (x : ℤ → ℂ) (k : ℤ) : fft1 n x (k + n) = fft1 n x k :=
  Finset.sum_congr rfl fun j _ => by rw [fftKernel_period]

theorem fft1_conj (n : ℕ) (x : ℤ → ℝ) (k : ℤ) :
    fft1 n (fun j => (x j : ℂ)) (-k) = (starRingEnd ℂ) (fft1 n (fun j => (x j : ℂ)) k) := by
  unfold fft1
  rw [map_sum]
  refine Finset.sum_congr rfl fun j _ => ?_
  rw [map_mul, fftKernel_conj, Complex.conj_ofReal]

/-- The Fourier modes are eigenvectors of a circulant matrix; the eigenvalues are the transform of its first column. -/
theorem circulant_eigen (n : ℕ) (M : ℤ → ℤ → ℂ)
    (hM : ∀ i j : ℤ, 0 ≤ i → i < n → 0 ≤ j → j < n → M i j = M ((i - j) % n) 0) :
    Eigen n M (ifftKernel n) (fft1 n fun j => M j 0) := by
  intro k i h1 h2 h3 h4
  have hn : n ≠ 0 := by omega
  have key := sum_reflect (n := n) (fun m => ifftKernel n k (i - m) * M (m % n) 0) (fun j => by
    rw [Int.add_emod_right, ifftKernel_comm n k (i - (j + n)), ← ifftKernel_period n (i - (j + n)) k,
      show i - (j + n) + n = i - j by ring, ifftKernel_comm]) i
  rw [show (∑ l ∈ Finset.Ico (0 : ℤ) n, ifftKernel n k l * M i l) =
    ∑ j ∈ Finset.Ico (0 : ℤ) n, ifftKernel n k (i - (i - j)) * M ((i - j) % n) 0 from
      Finset.sum_congr rfl fun j hj => by
        rw [Finset.mem_Ico] at hj
        rw [hM i j h3 h4 hj.1 hj.2, sub_sub_cancel], key]
  unfold fft1
  rw [Finset.sum_mul]
  refine Finset.sum_congr rfl fun m hm => ?_
  rw [Finset.mem_Ico] at hm
  rw [Int.emod_eq_of_lt hm.1 hm.2, mul_comm, mul_assoc]
  congr 1
  unfold fftKernel ifftKernel
  rw [← mul_div_assoc, ← Complex.exp_add]
  congr 2
  push_cast
  ring

/-! ### Spectra of real data -/

section HSym
variable {d : ℕ}

/-- Negate the coordinates in a set of axes. -/
def negOn (t : Finset (Fin d)) (k : Idx d) : Idx d := fun a => if a ∈ t then -k a else k a

/-- Hermitian symmetry and periodicity in a set of axes. -/
def HSym (s : Fin d → ℕ) (t : Finset (Fin d)) (y : Idx d → ℂ) : Prop :=
  (∀ k, y (negOn t k) = (starRingEnd ℂ) (y k)) ∧ ∀ a ∈ t, ∀ k, y (Function.update k a (k a + s a)) = y k

theorem negOn_update {t : Finset (Fin d)} {a : Fin d} (ha : a ∉ t) (k : Idx d) (j : ℤ) :
    Function.update (negOn (insert a t) k) a j = negOn t (Function.update k a j) := by
  funext b
  by_cases hb : b = a
  · subst hb; simp [negOn, ha]
  · rw [Function.update_of_ne hb]
    simp only [negOn, Finset.mem_insert, hb, false_or, Function.update_of_ne hb]

theorem HSym.fft {s : Fin d → ℕ} {t : Finset (Fin d)} {y : Idx d → ℂ} (h : HSym s t y) {a : Fin d} (ha : a ∉ t) :
    HSym s (insert a t) (axisOp (s a) a (fftKernel (s a)) y) := by
  constructor
  · intro k
    unfold axisOp
    rw [map_sum]
    refine Finset.sum_congr rfl fun j _ => ?_
    rw [map_mul, negOn_update ha, h.1, fftKernel_conj]
    congr 2
    simp [negOn]
  · intro b hb k
    unfold axisOp
    refine Finset.sum_congr rfl fun j _ => ?_
    by_cases hba : b = a
    · subst hba
      rw [Function.update_idem, Function.update_self, fftKernel_period]
    · have hbt : b ∈ t := (Finset.mem_insert.1 hb).resolve_left hba
      rw [Function.update_comm hba, Function.update_of_ne (Ne.symm hba)]
      have := h.2 b hbt (Function.update k a j)
      rw [Function.update_of_ne hba] at this
      rw [this]

theorem HSym.ifft {s : Fin d → ℕ} {t : Finset (Fin d)} {y : Idx d → ℂ} (h : HSym s t y) {a : Fin d} (ha : a ∈ t) :
    HSym s (t.erase a) (axisOp (s a) a (ifftKernel (s a)) y) := by
  have hins : insert a (t.erase a) = t := Finset.insert_erase ha
  constructor
  · intro k
    have hk : negOn (t.erase a) k a = k a := by simp [negOn]
    unfold axisOp
    rw [hk]
    have key := sum_reflect (n := s a)
      (fun j => y (Function.update (negOn (t.erase a) k) a j) * ifftKernel (s a) j (k a)) (fun j => by
        have := h.2 a ha (Function.update (negOn (t.erase a) k) a j)
        rw [Function.update_idem, Function.update_self] at this
        rw [this, ifftKernel_period]) 0
    rw [← key, map_sum]
    refine Finset.sum_congr rfl fun j _ => ?_
    rw [map_mul, ifftKernel_conj, zero_sub, ← h.1]
    congr 2
    funext b
    by_cases hb : b = a
    · subst hb; simp [negOn, ha]
    · rw [Function.update_of_ne hb]
      simp only [negOn, Finset.mem_erase, ne_eq, hb, not_false_eq_true, true_and, Function.update_of_ne hb]
  · intro b hb k
    have hba := (Finset.mem_erase.1 hb).1
    have hbt := (Finset.mem_erase.1 hb).2
    unfold axisOp
    refine Finset.sum_congr rfl fun j _ => ?_
    rw [Function.update_comm hba, Function.update_of_ne (Ne.symm hba)]
    have := h.2 b hbt (Function.update k a j)
    rw [Function.update_of_ne hba] at this
    rw [this]

theorem HSym.mul {s : Fin d → ℕ} {t : Finset (Fin d)} {y z : Idx d → ℂ} (h : HSym s t y) (h' : HSym s t z) :
    HSym s t fun k => y k * z k :=
  ⟨fun k => by dsimp only; rw [h.1, h'.1, map_mul], fun a ha k => by dsimp only; rw [h.2 a ha, h'.2 a ha]⟩

theorem HSym.real (s : Fin d → ℕ) (x : Idx d → ℝ) : HSym s ∅ fun i => (x i : ℂ) :=
  ⟨fun k => by rw [Complex.conj_ofReal]; congr 2, fun a ha => absurd ha (Finset.notMem_empty a)⟩

theorem HSym.fft_axes {s : Fin d → ℕ} (l : List (Fin d)) (hl : l.Nodup) {t : Finset (Fin d)} {y : Idx d → ℂ} (h : HSym s t y)
    (hd : ∀ a ∈ l, a ∉ t) : HSym s (t ∪ l.toFinset) (axesOp s (fun a => fftKernel (s a)) l y) := by
  induction l generalizing t y with
  | nil => simpa [axesOp] using h
  | cons a l ih =>
    rw [axesOp_cons]
    have := ih (List.nodup_cons.1 hl).2 (h.fft (hd a List.mem_cons_self)) (fun b hb hbt => by
      rcases Finset.mem_insert.1 hbt with e | e
      · exact (List.nodup_cons.1 hl).1 (e ▸ hb)
      · exact hd b (List.mem_cons_of_mem _ hb) e)
    have e : insert a t ∪ l.toFinset = t ∪ (a :: l).toFinset := by
      rw [List.toFinset_cons, Finset.insert_union, Finset.union_insert]
    rwa [e] at this

theorem HSym.ifft_axes {s : Fin d → ℕ} (l : List (Fin d)) (hl : l.Nodup) {t : Finset (Fin d)} {y : Idx d → ℂ} (h : HSym s t y)
    (hd : ∀ a ∈ l, a ∈ t) : HSym s (t \ l.toFinset) (axesOp s (fun a => ifftKernel (s a)) l y) := by
  induction l generalizing t y with
  | nil => simpa [axesOp] using h
  | cons a l ih =>
    rw [axesOp_cons]
    have := ih (List.nodup_cons.1 hl).2 (h.ifft (hd a List.mem_cons_self)) (fun b hb =>
      Finset.mem_erase.2 ⟨fun e => (List.nodup_cons.1 hl).1 (e ▸ hb), hd b (List.mem_cons_of_mem _ hb)⟩)
    have e : t.erase a \ l.toFinset = t \ (a :: l).toFinset := by
      rw [List.toFinset_cons]
      ext b
      simp only [Finset.mem_sdiff, Finset.mem_erase, Finset.mem_insert, not_or]
      tauto
    rwa [e] at this

end HSym

theorem sum_half {m : ℤ} (hm : 1 ≤ m) (g : ℤ → ℂ) :
    ∑ j ∈ Finset.Ico (0 : ℤ) (2 * m), g j = g 0 + ∑ j ∈ Finset.Ico (1 : ℤ) m, (g j + g (2 * m - j)) + g m := by
  have e : Finset.Ico (0 : ℤ) (2 * m) =
      insert 0 (insert m (Finset.Ico 1 m ∪ (Finset.Ico 1 m).image fun j => 2 * m - j)) := by
    ext j
    simp only [Finset.mem_Ico, Finset.mem_insert, Finset.mem_union, Finset.mem_image]
    constructor
    · intro h
      by_cases h0 : j = 0
      · exact Or.inl h0
      by_cases h1 : j = m
      · exact Or.inr (Or.inl h1)
      by_cases h2 : j < m
      · exact Or.inr (Or.inr (Or.inl ⟨by omega, h2⟩))
      · exact Or.inr (Or.inr (Or.inr ⟨2 * m - j, by omega, by omega⟩))
    · rintro (h | h | h | ⟨l, h, h'⟩) <;> omega
  have n1 : (0 : ℤ) ∉ insert m (Finset.Ico 1 m ∪ (Finset.Ico 1 m).image fun j => 2 * m - j) := by
    simp only [Finset.mem_Ico, Finset.mem_insert, Finset.mem_union, Finset.mem_image, not_or, not_exists]
    exact ⟨by omega, by omega, fun l h => by omega⟩
  have n2 : m ∉ (Finset.Ico 1 m ∪ (Finset.Ico 1 m).image fun j => 2 * m - j) := by
    simp only [Finset.mem_Ico, Finset.mem_union, Finset.mem_image, not_or, not_exists]
    exact ⟨by omega, fun l h => by omega⟩
  have n3 : Disjoint (Finset.Ico 1 m) ((Finset.Ico 1 m).image fun j => 2 * m - j) := by
    rw [Finset.disjoint_left]
    intro j h h'
    simp only [Finset.mem_Ico, Finset.mem_image] at h h'
    obtain ⟨l, hl, hl'⟩ := h'
    omega
  rw [e, Finset.sum_insert n1, Finset.sum_insert n2, Finset.sum_union n3,
    Finset.sum_image (fun a _ b _ (h : 2 * m - a = 2 * m - b) => by omega), Finset.sum_add_distrib]
  ring

/-- `irfft` of the first half of a hermitian spectrum is the full inverse transform. -/
theorem irfftLast_eq {k : ℕ} (s : Fin (k + 1) → ℕ) (y : Idx (k + 1) → ℂ) (h : HSym s {Fin.last k} y)
    (he : s (Fin.last k) % 2 = 0) (x : NArr (k + 1) ℂ) (hxs : x.shape (Fin.last k) = s (Fin.last k) / 2 + 1) (hxd : x.data = y)
    (i : Idx (k + 1)) (hi : InR s i) :
    ((irfftLast x).data i : ℂ) = axisOp (s (Fin.last k)) (Fin.last k) (ifftKernel (s (Fin.last k))) y i := by
  set n := s (Fin.last k) with hn
  obtain ⟨m, hm⟩ : ∃ m, n = 2 * m := ⟨n / 2, by omega⟩
  have hi' := hi (Fin.last k)
  rw [← hn] at hi'
  have hm1 : (1 : ℤ) ≤ m := by omega
  have hmn : 2 * (x.shape (Fin.last k) - 1) = n := by omega
  have hm2 : n / 2 = m := by omega
  have hnC : (n : ℂ) ≠ 0 := Nat.cast_ne_zero.2 (by omega)
  have hmC : (m : ℂ) ≠ 0 := Nat.cast_ne_zero.2 (by omega)
  set z : ℤ → ℂ := fun j => y (Function.update i (Fin.last k) j) with hz
  have zconj : ∀ j, z (-j) = (starRingEnd ℂ) (z j) := by
    intro j
    rw [hz]; dsimp only
    rw [← h.1]
    congr 1
    funext b
    by_cases hb : b = Fin.last k
    · subst hb; simp [negOn]
    · simp [negOn, hb, Function.update_of_ne hb]
  have zper : ∀ j, z (j + n) = z j := by
    intro j
    have := h.2 (Fin.last k) (Finset.mem_singleton_self _) (Function.update i (Fin.last k) j)
    rw [Function.update_idem, Function.update_self] at this
    exact this
  set e : ℤ → ℂ := fun j => Complex.exp (2 * Real.pi * Complex.I * j * i (Fin.last k) / n) with hedef
  have eE : ∀ j, e j / n = ifftKernel n j (i (Fin.last k)) := fun j => rfl
  have econj : ∀ j, e (n - j) = (starRingEnd ℂ) (e j) := by
    intro j
    have h1 := ifftKernel_conj n j (i (Fin.last k))
    rw [← ifftKernel_period n (-j), ← eE, ← eE, map_div₀, map_natCast] at h1
    rw [show (n : ℤ) - j = -j + n by ring]
    field_simp at h1
    exact h1.symm
  have zre : ∀ j, z j = (starRingEnd ℂ) (z j) → ((z j).re : ℂ) = z j := by
    intro j hj
    exact Complex.conj_eq_iff_re.1 hj.symm
  have z0 : ((z 0).re : ℂ) = z 0 := zre 0 (by rw [← zconj]; simp)
  have zm : ((z m).re : ℂ) = z m := zre m (by
    rw [← zconj, ← zper (-(m : ℤ))]; congr 1; push_cast [hm]; ring)
  have e0 : e 0 = 1 := by simp [hedef]
  have em : e m = (-1) ^ (i (Fin.last k)).toNat := by
    have hii : ((i (Fin.last k)).toNat : ℤ) = i (Fin.last k) := Int.toNat_of_nonneg hi'.1
    have : (2 * Real.pi * Complex.I * ((m : ℤ) : ℂ) * i (Fin.last k) / n : ℂ) =
        ((i (Fin.last k)).toNat : ℕ) * (Real.pi * Complex.I) := by
      have h3 : ((i (Fin.last k) : ℤ) : ℂ) = (((i (Fin.last k)).toNat : ℕ) : ℂ) := by
        have := (congrArg (Int.cast : ℤ → ℂ) hii).symm
        rwa [Int.cast_natCast] at this
      rw [h3, hm]; push_cast; field_simp
    show Complex.exp _ = _
    rw [this, Complex.exp_nat_mul, Complex.exp_pi_mul_I]
  have rhs : axisOp n (Fin.last k) (ifftKernel n) y i = (∑ j ∈ Finset.Ico (0 : ℤ) (2 * m), z j * e j) / n := by
    rw [Finset.sum_div, show (2 * (m : ℤ)) = (n : ℤ) by rw [hm]; push_cast; ring]
    unfold axisOp
    exact Finset.sum_congr rfl fun j _ => by rw [← eE, mul_div_assoc]
  rw [rhs, sum_half hm1]
  unfold irfftLast
  dsimp only
  rw [hmn, hm2, hxd]
  show (((((z 0).re + ∑ j ∈ Finset.Ico (1 : ℤ) (m : ℤ), 2 * (z j * e j).re) + (z m).re * (-1) ^ (i (Fin.last k)).toNat) / n : ℝ) : ℂ) = _
  push_cast
  rw [z0, zm, e0, em, mul_one]
  congr 3
  refine Finset.sum_congr rfl fun j _ => ?_
  have hc : z (2 * m - j) * e (2 * m - j) = (starRingEnd ℂ) (z j * e j) := by
    have h2m : (2 * (m : ℤ)) = (n : ℤ) := by rw [hm]; push_cast; ring
    rw [map_mul, h2m, econj, ← zconj, ← zper (-j)]
    congr 2
    ring
  rw [hc, Complex.add_conj]
  push_cast
  ring

end JaxCfd
