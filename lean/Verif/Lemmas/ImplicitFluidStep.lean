import Verif.Lemmas.FluidStep

/-!
# One step with implicit diffusion: how errors grow in the energy norm
-/

namespace JaxCfd
variable {d : ℕ} {s : Fin d → ℕ} {h : Fin d → ℝ}

/-- The norm in which the implicit step is stable: the kinetic energy plus `2c` times the dissipation. -/
noncomputable def enorm (s : Fin d → ℕ) (h : Fin d → ℝ) (c : ℝ) (e : Fin d → Idx d → ℝ) : ℝ := Real.sqrt (n2 s e ^ 2 + 2 * c * gn s h e ^ 2)

theorem enorm_sq {c : ℝ} (hc : 0 ≤ c) (e : Fin d → Idx d → ℝ) : enorm s h c e ^ 2 = n2 s e ^ 2 + 2 * c * gn s h e ^ 2 :=
  Real.sq_sqrt (by positivity)

theorem enorm_nonneg (c : ℝ) (e : Fin d → Idx d → ℝ) : 0 ≤ enorm s h c e := Real.sqrt_nonneg _

theorem n2_le_enorm {c : ℝ} (hc : 0 ≤ c) (e : Fin d → Idx d → ℝ) : n2 s e ≤ enorm s h c e := by
  refine le_of_sq_le_sq ?_ (enorm_nonneg _ _)
  rw [enorm_sq hc]
  nlinarith [mul_nonneg hc (sq_nonneg (gn s h e))]

/-- The diffusion solve, applied after a projection, is stable: right hand sides in the plain norm bound solutions in the energy norm. -/
theorem implicit_energy {c : ℝ} (hc : 0 ≤ c) {e Y : Fin d → Idx d → ℝ} {q : Idx d → ℝ} (heq : ∀ a i, InR s i → e a i - c * dLap s h (e a) i = Y a i - dGrad s h q a i)
    (h0 : ∀ i, InR s i → dDiv s h e i = 0) : enorm s h c e ≤ n2 s Y := by
  refine le_of_sq_le_sq ?_ (n2_nonneg _)
  rw [enorm_sq hc]
  have h1 : n2 s e ^ 2 + c * gn s h e ^ 2 = ∑ a, ∑ i ∈ box s, e a i * Y a i - ∑ a, ∑ i ∈ box s, dGrad s h q a i * e a i := by
    have hE := diffusion_energy (s := s) (h := h) e
    have : c * gn s h e ^ 2 = -(c * ∑ a, ∑ i ∈ box s, e a i * dLap s h (e a) i) := by rw [hE]; ring
    rw [this, n2_sq', Finset.mul_sum, ← Finset.sum_neg_distrib, ← Finset.sum_add_distrib, ← Finset.sum_sub_distrib]
    refine Finset.sum_congr rfl fun a _ => ?_
    rw [Finset.mul_sum, ← Finset.sum_neg_distrib, ← Finset.sum_add_distrib, ← Finset.sum_sub_distrib]
    refine Finset.sum_congr rfl fun i hi => ?_
    have := heq a i (mem_box.1 hi)
    linear_combination e a i * this
  have h2 : ∑ a, ∑ i ∈ box s, dGrad s h q a i * e a i = 0 := by
    rw [grad_adjoint, Finset.sum_eq_zero fun i hi => by rw [h0 i (mem_box.1 hi), mul_zero], neg_zero]
  have h3 := (le_abs_self _).trans (n2_inner_le (s := s) e Y)
  rw [h2, sub_zero] at h1
  have := sq_nonneg (n2 s e - n2 s Y)
  nlinarith

/-- The explicit convection of a divergence-free error, followed by implicit diffusion, does not increase the energy norm under the step restriction `dt d U² ≤ 2 ν`. -/
theorem convection_energy {w e : Fin d → Idx d → ℝ} {U nu dt : ℝ} (hU : 0 ≤ U) (hnu : 0 ≤ nu) (hdt : 0 ≤ dt) (hwU : ∀ a i, InR s i → |w a i| ≤ U) (hw : ∀ i, InR s i → dDiv s h w i = 0)
    (hc : dt * (d * U ^ 2) ≤ 2 * nu) : n2 s (fun a x => e a x - dt * conv s h w e a x) ≤ enorm s h (dt * nu) e := by
  refine le_of_sq_le_sq ?_ (enorm_nonneg _ _)
  rw [enorm_sq (mul_nonneg hdt hnu)]
  have e1 : n2 s (fun a x => e a x - dt * conv s h w e a x) ^ 2 = n2 s e ^ 2 - 2 * dt * ∑ a, ∑ x ∈ box s, e a x * conv s h w e a x + dt ^ 2 * n2 s (conv s h w e) ^ 2 := by
    rw [n2_sq', n2_sq', n2_sq', Finset.mul_sum, Finset.mul_sum, ← Finset.sum_sub_distrib, ← Finset.sum_add_distrib]
    refine Finset.sum_congr rfl fun a _ => ?_
    rw [Finset.mul_sum, Finset.mul_sum, ← Finset.sum_sub_distrib, ← Finset.sum_add_distrib]
    exact Finset.sum_congr rfl fun x _ => by ring
  have h5 : n2 s (conv s h w e) ^ 2 ≤ d * U ^ 2 * gn s h e ^ 2 := by
    refine (pow_le_pow_left₀ (n2_nonneg _) (conv_bounded (q := e) hU hwU hw) 2).trans (le_of_eq ?_)
    rw [mul_pow, mul_pow, Real.sq_sqrt (Nat.cast_nonneg d)]
    ring
  rw [e1, conv_skew w e hw]
  have h8 := mul_le_mul_of_nonneg_left h5 (sq_nonneg dt)
  have h9 := mul_le_mul_of_nonneg_right (mul_le_mul_of_nonneg_left hc hdt) (sq_nonneg (gn s h e))
  nlinarith

theorem dLap_const_mul (c : ℝ) (q : Idx d → ℝ) (x : Idx d) : dLap s h (fun x => c * q x) x = c * dLap s h q x := by
  unfold dLap
  rw [Finset.mul_sum]
  exact Finset.sum_congr rfl fun a _ => by ring

/-- The error after a step with implicit diffusion: `w` is the computed field, `v` and `v'` are the exact fields at the two times, `vt` and `vt'` their projections. -/
theorem implicit_fluid_step (hh : ∀ a, 0 < h a) {w v vt w' v' vt' f : Fin d → Idx d → ℝ} {q r r' Q : Idx d → ℝ} {U G nu dt τ : ℝ} (hU : 0 ≤ U) (hG : 0 ≤ G) (hnu : 0 ≤ nu) (hdt : 0 ≤ dt)
    (hτ : 0 ≤ τ) (hwU : ∀ a i, InR s i → |w a i| ≤ U) (hw : ∀ i, InR s i → dDiv s h w i = 0)
    (hvU : ∀ a i, InR s i → |v a i| ≤ U) (hvG : ∀ i a x, InR s x → |dGrad s h (v i) a x| ≤ G)
    (hvt : ∀ a i, InR s i → vt a i = v a i - dGrad s h q a i) (hvt0 : ∀ i, InR s i → dDiv s h vt i = 0)
    (hc : dt * (d * U ^ 2) ≤ 2 * nu)
    (hw' : ∀ a i, InR s i → w' a i - dt * nu * dLap s h (w' a) i = w a i + dt * (-conv s h w w a i + f a i) - dGrad s h r a i) (hw'0 : ∀ i, InR s i → dDiv s h w' i = 0)
    (hvt' : ∀ a i, InR s i → vt' a i = v' a i - dGrad s h r' a i) (hvt'0 : ∀ i, InR s i → dDiv s h vt' i = 0)
    (hv' : ∀ a i, InR s i → |v' a i - dt * nu * dLap s h (v' a) i - (v a i + dt * (-conv s h v v a i + f a i - dGrad s h Q a i))| ≤ dt * τ) :
    enorm s h (dt * nu) (fun a i => w' a i - vt' a i) ≤ (1 + dt * (d * G)) * enorm s h (dt * nu) (fun a i => w a i - vt a i) +
      dt * ((2 * (Real.sqrt d * U) + d * G * l2 Finset.univ (fun a => h a * s a)) * l2 (box s) (dDiv s h v) + τ * (Real.sqrt d * Real.sqrt (box s).card)) := by
  set e : Fin d → Idx d → ℝ := fun a i => w a i - vt a i with he
  set z : Fin d → Idx d → ℝ := fun a i => w a i - v a i with hz
  set T : Fin d → Idx d → ℝ := fun a i => v' a i - dt * nu * dLap s h (v' a) i - (v a i + dt * (-conv s h v v a i + f a i - dGrad s h Q a i)) with hT
  have hcn : 0 ≤ dt * nu := mul_nonneg hdt hnu
  have hez : ∀ a i, InR s i → z a i = e a i - dGrad s h q a i := fun a i hi => by
    show w a i - v a i = w a i - vt a i - dGrad s h q a i
    rw [hvt a i hi]; ring
  have hp := implicit_energy (s := s) (h := h) hcn (e := fun a i => w' a i - vt' a i)
    (Y := fun a i => (e a i - dt * conv s h w e a i) + (dt * (conv s h w (dGrad s h q) a i - conv s h z v a i) - T a i))
    (q := fun i => (r i - r' i) + (q i + dt * nu * dLap s h r' i - dt * Q i))
    (fun a i hi => by
      have c1 := conv_sub (s := s) (h := h) w v a i
      have c2 : conv s h w z a i = conv s h w e a i - conv s h w (dGrad s h q) a i := by
        rw [← conv_sub_right]
        exact conv_congr (fun _ _ _ => rfl) hez a hi
      have l1 : dLap s h (vt' a) i = dLap s h (v' a) i - dLap s h (dGrad s h r' a) i := by
        rw [← dLap_sub]
        exact dLap_congr (hvt' a) hi
      rw [dLap_dGrad] at l1
      have l4 : dGrad s h (fun i => (r i - r' i) + (q i + dt * nu * dLap s h r' i - dt * Q i)) a i =
          dGrad s h r a i - dGrad s h r' a i + dGrad s h q a i + dt * nu * dGrad s h (dLap s h r') a i - dt * dGrad s h Q a i := by
        unfold dGrad
        ring
      have z1 : z a i = w a i - v a i := rfl
      have z2 := hez a i hi
      have c1' : conv s h w w a i - conv s h v v a i = conv s h w z a i + conv s h z v a i := c1
      have l2' : dLap s h (fun i => w' a i - vt' a i) i = dLap s h (w' a) i - dLap s h (vt' a) i := dLap_sub (w' a) (vt' a) i
      show w' a i - vt' a i - dt * nu * dLap s h (fun i => w' a i - vt' a i) i = (e a i - dt * conv s h w e a i) + (dt * (conv s h w (dGrad s h q) a i - conv s h z v a i) -
        (v' a i - dt * nu * dLap s h (v' a) i - (v a i + dt * (-conv s h v v a i + f a i - dGrad s h Q a i)))) - _
      rw [l4, l2', l1, hvt' a i hi]
      have := hw' a i hi
      linear_combination this - dt * c1' - dt * c2 + z2 - z1)
    (fun i hi => by rw [dDiv_sub, hw'0 i hi, hvt'0 i hi, sub_zero])
  refine hp.trans ((n2_add_le _ _).trans ?_)
  have b1 := convection_energy (e := e) hU hnu hdt hwU hw hc
  have b2 := n2_sub_le (s := s) (fun a i => dt * (conv s h w (dGrad s h q) a i - conv s h z v a i)) T
  rw [n2_smul dt (fun a i => conv s h w (dGrad s h q) a i - conv s h z v a i), abs_of_nonneg hdt] at b2
  have b3 := n2_sub_le (s := s) (conv s h w (dGrad s h q)) (conv s h z v)
  have b4 := conv_bounded (q := dGrad s h q) hU hwU hw
  have b5 := conv_of_smooth (z := z) hU hG hvU hvG
  have b6 : n2 s T ≤ dt * τ * (Real.sqrt d * Real.sqrt (box s).card) := n2_le_of_bound (mul_nonneg hdt hτ) hv'
  have b7 := projection_near hh hvt hvt0
  have hLq : l2 (box s) (dLap s h q) = l2 (box s) (dDiv s h v) := l2_congr fun i hi => by
    have hi' := mem_box.1 hi
    rw [← dDiv_dGrad q hi']
    have := dDiv_sub (s := s) (h := h) v vt i
    rw [hvt0 i hi', sub_zero] at this
    rw [← this]
    exact dDiv_congr (fun a i hi => by rw [hvt a i hi]; ring) hi'
  have hDz : l2 (box s) (dDiv s h z) = l2 (box s) (dDiv s h v) := by
    rw [← l2_neg]
    exact l2_congr fun i hi => by rw [hz, dDiv_sub, hw i (mem_box.1 hi)]; ring
  have b8 : n2 s z ≤ enorm s h (dt * nu) e + n2 s (dGrad s h q) := by
    rw [n2_congr hez]
    exact (n2_sub_le _ _).trans (add_le_add_left (n2_le_enorm hcn e) _)
  rw [gn_dGrad, hLq] at b4
  rw [hDz] at b5
  have hdG : (0 : ℝ) ≤ d * G := by positivity
  have b9 := mul_le_mul_of_nonneg_left (b8.trans (add_le_add_right b7 _)) hdG
  have b10 : n2 s (fun a i => conv s h w (dGrad s h q) a i - conv s h z v a i) ≤
      (2 * (Real.sqrt d * U) + d * G * l2 Finset.univ (fun a => h a * s a)) * l2 (box s) (dDiv s h v) + d * G * enorm s h (dt * nu) e := by
    refine b3.trans ?_
    linarith
  have b11 := mul_le_mul_of_nonneg_left b10 hdt
  linarith

theorem dGrad_comm (q : Idx d → ℝ) (a b : Fin d) (i : Idx d) : dGrad s h (dGrad s h q a) b i = dGrad s h (dGrad s h q b) a i := by
  unfold dGrad
  rw [rollIdx_comm s a b 1 1]
  ring

theorem gn_sq' (e : Fin d → Idx d → ℝ) : gn s h e ^ 2 = ∑ b, n2 s (fun a => dGrad s h (e a) b) ^ 2 := by
  rw [gn_sq]
  simp only [n2_sq]
  exact Finset.sum_comm

theorem dDiv_grad_comm (e : Fin d → Idx d → ℝ) (b : Fin d) (i : Idx d) : dDiv s h (fun a => dGrad s h (e a) b) i = dGrad s h (dDiv s h e) b i := by
  unfold dDiv dGrad
  rw [← Finset.sum_sub_distrib, Finset.sum_div]
  refine Finset.sum_congr rfl fun a _ => ?_
  beta_reduce
  rw [rollIdx_comm s b a 1 (-1)]
  ring

/-- The projection does not increase the energy norm either. -/
theorem projection_contracts_energy {c : ℝ} (hc : 0 ≤ c) {u p : Fin d → Idx d → ℝ} {q : Idx d → ℝ} (e : ∀ a i, InR s i → p a i = u a i - dGrad s h q a i)
    (hp : ∀ i, InR s i → dDiv s h p i = 0) : enorm s h c p ≤ enorm s h c u := by
  unfold enorm
  refine Real.sqrt_le_sqrt (add_le_add (pow_le_pow_left₀ (n2_nonneg _) (projection_contracts e hp) 2) (mul_le_mul_of_nonneg_left ?_ (by linarith)))
  rw [gn_sq', gn_sq']
  refine Finset.sum_le_sum fun b _ => pow_le_pow_left₀ (n2_nonneg _) (projection_contracts (h := h) (q := dGrad s h q b) (fun a i hi => ?_) fun i hi => ?_) 2
  · rw [← dGrad_comm, ← dGrad_sub]
    unfold dGrad
    rw [e a i hi, e a _ (rollIdx_inR hi b 1)]
    rfl
  · rw [dDiv_grad_comm]
    unfold dGrad
    rw [hp i hi, hp _ (rollIdx_inR hi b 1), sub_self, zero_div]

end JaxCfd
