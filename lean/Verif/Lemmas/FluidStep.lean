import Verif.Lemmas.DiscreteConvection

/-!
# One step of the projection method: how errors grow
-/

namespace JaxCfd
variable {d : ℕ} {s : Fin d → ℕ} {h : Fin d → ℝ}

/-- Explicit convection and diffusion of a divergence-free error do not increase its norm under the step restriction. -/
theorem explicit_contracts {w e : Fin d → Idx d → ℝ} {U nu dt : ℝ} (hU : 0 ≤ U) (hnu : 0 ≤ nu) (hdt : 0 ≤ dt) (hwU : ∀ a i, InR s i → |w a i| ≤ U) (hw : ∀ i, InR s i → dDiv s h w i = 0)
    (hc : dt * (4 * nu ^ 2 * ∑ a, 1 / h a ^ 2 + d * U ^ 2) ≤ nu) :
    n2 s (fun a x => e a x + dt * (nu * dLap s h (e a) x - conv s h w e a x)) ≤ n2 s e := by
  refine le_of_sq_le_sq ?_ (n2_nonneg _)
  set Y : Fin d → Idx d → ℝ := fun a x => nu * dLap s h (e a) x - conv s h w e a x with hY
  have e1 : n2 s (fun a x => e a x + dt * Y a x) ^ 2 = n2 s e ^ 2 + 2 * dt * ∑ a, ∑ x ∈ box s, e a x * Y a x + dt ^ 2 * n2 s Y ^ 2 := by
    rw [n2_sq', n2_sq', n2_sq', Finset.mul_sum, Finset.mul_sum, ← Finset.sum_add_distrib, ← Finset.sum_add_distrib]
    refine Finset.sum_congr rfl fun a _ => ?_
    rw [Finset.mul_sum, Finset.mul_sum, ← Finset.sum_add_distrib, ← Finset.sum_add_distrib]
    exact Finset.sum_congr rfl fun x _ => by ring
  have e2 : ∑ a, ∑ x ∈ box s, e a x * Y a x = -(nu * gn s h e ^ 2) := by
    have : ∑ a, ∑ x ∈ box s, e a x * Y a x = nu * ∑ a, ∑ x ∈ box s, e a x * dLap s h (e a) x - ∑ a, ∑ x ∈ box s, e a x * conv s h w e a x := by
      rw [Finset.mul_sum, ← Finset.sum_sub_distrib]
      refine Finset.sum_congr rfl fun a _ => ?_
      rw [Finset.mul_sum, ← Finset.sum_sub_distrib]
      exact Finset.sum_congr rfl fun x _ => by rw [hY]; ring
    rw [this, diffusion_energy, conv_skew w e hw]
    ring
  have e3 : n2 s Y ^ 2 ≤ 2 * (4 * nu ^ 2 * ∑ a, 1 / h a ^ 2 + d * U ^ 2) * gn s h e ^ 2 := by
    have h1 := n2_sub_le (s := s) (fun a x => nu * dLap s h (e a) x) (fun a x => conv s h w e a x)
    rw [n2_smul nu (fun a x => dLap s h (e a) x), abs_of_nonneg hnu] at h1
    have h2 := conv_bounded (q := e) hU hwU hw
    have h3 := dLap_n2_le (s := s) (h := h) e
    have h4 : n2 s Y ^ 2 ≤ (nu * n2 s (fun a x => dLap s h (e a) x) + n2 s (fun a x => conv s h w e a x)) ^ 2 := pow_le_pow_left₀ (n2_nonneg _) h1 2
    have h5 : n2 s (conv s h w e) ^ 2 ≤ d * U ^ 2 * gn s h e ^ 2 := by
      refine (pow_le_pow_left₀ (n2_nonneg _) h2 2).trans (le_of_eq ?_)
      rw [mul_pow, mul_pow, Real.sq_sqrt (Nat.cast_nonneg d)]
      ring
    have h6 := mul_le_mul_of_nonneg_left h3 (sq_nonneg nu)
    have h7 : (nu * n2 s (fun a x => dLap s h (e a) x) + n2 s (fun a x => conv s h w e a x)) ^ 2 ≤
        2 * (nu ^ 2 * n2 s (fun a => dLap s h (e a)) ^ 2) + 2 * n2 s (conv s h w e) ^ 2 := by
      have := sq_nonneg (nu * n2 s (fun a x => dLap s h (e a) x) - n2 s (fun a x => conv s h w e a x))
      have e5 : n2 s (fun a x => conv s h w e a x) = n2 s (conv s h w e) := rfl
      have e6 : n2 s (fun a x => dLap s h (e a) x) = n2 s (fun a => dLap s h (e a)) := rfl
      rw [e5, e6] at *
      nlinarith
    linarith
  rw [e1, e2]
  have h8 := mul_le_mul_of_nonneg_left e3 (sq_nonneg dt)
  have h9 := mul_le_mul_of_nonneg_right (mul_le_mul_of_nonneg_left hc (mul_nonneg (by norm_num : (0 : ℝ) ≤ 2) hdt)) (sq_nonneg (gn s h e))
  nlinarith

/-- The error after a step: `w` is the computed field, `v` and `v'` are the exact fields at the two times, `vt` and `vt'` their projections. -/
theorem fluid_step (hh : ∀ a, 0 < h a) {w v vt w' v' vt' f : Fin d → Idx d → ℝ} {q r r' Q : Idx d → ℝ} {U G nu dt τ : ℝ} (hU : 0 ≤ U) (hG : 0 ≤ G) (hnu : 0 ≤ nu) (hdt : 0 ≤ dt) (hτ : 0 ≤ τ)
    (hwU : ∀ a i, InR s i → |w a i| ≤ U) (hw : ∀ i, InR s i → dDiv s h w i = 0)
    (hvU : ∀ a i, InR s i → |v a i| ≤ U) (hvG : ∀ i a x, InR s x → |dGrad s h (v i) a x| ≤ G)
    (hvt : ∀ a i, InR s i → vt a i = v a i - dGrad s h q a i) (hvt0 : ∀ i, InR s i → dDiv s h vt i = 0)
    (hc : dt * (4 * nu ^ 2 * ∑ a, 1 / h a ^ 2 + d * U ^ 2) ≤ nu)
    (hw' : ∀ a i, InR s i → w' a i = w a i + dt * (-conv s h w w a i + nu * dLap s h (w a) i + f a i) - dGrad s h r a i) (hw'0 : ∀ i, InR s i → dDiv s h w' i = 0)
    (hvt' : ∀ a i, InR s i → vt' a i = v' a i - dGrad s h r' a i) (hvt'0 : ∀ i, InR s i → dDiv s h vt' i = 0)
    (hv' : ∀ a i, InR s i → |v' a i - (v a i + dt * (-conv s h v v a i + nu * dLap s h (v a) i + f a i - dGrad s h Q a i))| ≤ dt * τ) :
    n2 s (fun a i => w' a i - vt' a i) ≤ (1 + dt * (d * G)) * n2 s (fun a i => w a i - vt a i) +
      dt * ((2 * (Real.sqrt d * U) + d * G * l2 Finset.univ (fun a => h a * s a)) * l2 (box s) (dDiv s h v) + τ * (Real.sqrt d * Real.sqrt (box s).card)) := by
  set e : Fin d → Idx d → ℝ := fun a i => w a i - vt a i with he
  set z : Fin d → Idx d → ℝ := fun a i => w a i - v a i with hz
  set T : Fin d → Idx d → ℝ := fun a i => v' a i - (v a i + dt * (-conv s h v v a i + nu * dLap s h (v a) i + f a i - dGrad s h Q a i)) with hT
  have hez : ∀ a i, InR s i → z a i = e a i - dGrad s h q a i := fun a i hi => by
    show w a i - v a i = w a i - vt a i - dGrad s h q a i
    rw [hvt a i hi]; ring
  -- the difference before the projection
  have hp := projection_contracts (s := s) (h := h) (p := fun a i => w' a i - vt' a i)
    (u := fun a i => (e a i + dt * (nu * dLap s h (e a) i - conv s h w e a i)) + (dt * (conv s h w (dGrad s h q) a i - conv s h z v a i) - T a i))
    (q := fun i => (r i - r' i) + (q i + dt * nu * dLap s h q i - dt * Q i))
    (fun a i hi => by
      have c1 := conv_sub (s := s) (h := h) w v a i
      have c2 : conv s h w z a i = conv s h w e a i - conv s h w (dGrad s h q) a i := by
        rw [← conv_sub_right]
        exact conv_congr (fun _ _ _ => rfl) hez a hi
      have l1 : dLap s h (z a) i = dLap s h (e a) i - dLap s h (dGrad s h q a) i := by
        rw [← dLap_sub]
        exact dLap_congr (hez a) hi
      have l2' : dLap s h (z a) i = dLap s h (w a) i - dLap s h (v a) i := dLap_sub (w a) (v a) i
      rw [dLap_dGrad] at l1
      have l4 : dGrad s h (fun i => (r i - r' i) + (q i + dt * nu * dLap s h q i - dt * Q i)) a i =
          dGrad s h r a i - dGrad s h r' a i + dGrad s h q a i + dt * nu * dGrad s h (dLap s h q) a i - dt * dGrad s h Q a i := by
        unfold dGrad
        ring
      have z1 : z a i = w a i - v a i := rfl
      have z2 := hez a i hi
      have c1' : conv s h w w a i - conv s h v v a i = conv s h w z a i + conv s h z v a i := c1
      rw [hw' a i hi, hvt' a i hi, l4]
      show _ = _ + (_ - (v' a i - _)) - _
      linear_combination (-dt) * c1' - dt * c2 + dt * nu * l1 - dt * nu * l2' + z2 - z1)
    (fun i hi => by rw [dDiv_sub, hw'0 i hi, hvt'0 i hi, sub_zero])
  refine hp.trans ((n2_add_le _ _).trans ?_)
  have b1 := explicit_contracts (e := e) hU hnu hdt hwU hw hc
  have b2 := n2_sub_le (s := s) (fun a i => dt * (conv s h w (dGrad s h q) a i - conv s h z v a i)) T
  rw [n2_smul dt (fun a i => conv s h w (dGrad s h q) a i - conv s h z v a i), abs_of_nonneg hdt] at b2
  have b3 := n2_sub_le (s := s) (conv s h w (dGrad s h q)) (conv s h z v)
  have b4 := conv_bounded (q := dGrad s h q) hU hwU hw
  have b5 := conv_of_smooth (z := z) hU hG hvU hvG
  have b6 : n2 s T ≤ dt * τ * (Real.sqrt d * Real.sqrt (box s).card) := n2_le_of_bound (mul_nonneg hdt hτ) hv'
  have b7 := projection_near hh hvt hvt0
  have hLq : l2 (box s) (dLap s h q) = l2 (box s) (dDiv s h v) := l2_congr fun i hi => by
    have hi' := mem_box.1 hi
    rw [← dDiv_dGrad q hi']
    have := dDiv_sub (s := s) (h := h) v vt i
    rw [hvt0 i hi', sub_zero] at this
    rw [← this]
    exact dDiv_congr (fun a i hi => by rw [hvt a i hi]; ring) hi'
  have hDz : l2 (box s) (dDiv s h z) = l2 (box s) (dDiv s h v) := by
    rw [← l2_neg]
    exact l2_congr fun i hi => by rw [hz, dDiv_sub, hw i (mem_box.1 hi)]; ring
  have b8 : n2 s z ≤ n2 s e + n2 s (dGrad s h q) := by
    rw [n2_congr hez]
    exact n2_sub_le _ _
  rw [gn_dGrad, hLq] at b4
  rw [hDz] at b5
  have hdG : (0 : ℝ) ≤ d * G := by positivity
  have b9 := mul_le_mul_of_nonneg_left (b8.trans (add_le_add_right b7 _)) hdG
  have b10 : n2 s (fun a i => conv s h w (dGrad s h q) a i - conv s h z v a i) ≤
      (2 * (Real.sqrt d * U) + d * G * l2 Finset.univ (fun a => h a * s a)) * l2 (box s) (dDiv s h v) + d * G * n2 s e := by
    refine b3.trans ?_
    linarith
  have b11 := mul_le_mul_of_nonneg_left b10 hdt
  linarith

end JaxCfd
