import Verif.Props.Convergence

/-!
# C74: implicit diffusion; explicit diffusion with the recommended time step
-/

namespace JaxCfd
variable {d : ℕ} [HasNan ℝ]

/-- **C74** With the time step recommended by `diffusion.stable_time_step` (or any smaller one) explicit diffusion converges. -/
theorem C74_recommended_step (hd : d ≠ 0) (c : ℕ → GridVariable d ℝ) (hc : (c 0).Periodic) (g : Grid d ℝ) (hgr : (c 0).array.grid = g) (hg : g.Valid) (nu dt : ℝ) (hnu : 0 ≤ nu) (hdt : 0 ≤ dt)
    (ddt : WithTop ℝ) (hddt : diffusionStableTimeStep nu g = .ok ddt) (hle : (dt : WithTop ℝ) ≤ ddt) (hrun : ∀ n, ∃ r, diffuse (c n) nu = .ok r ∧ EulerStep (c n) r dt (c (n + 1)))
    (C : ℝ → (Fin d → ℝ) → ℝ) (T : ℝ) (M : Fin d → ℝ) (hCt : SmoothInTime C T) (hCp : ∀ t, 0 ≤ t → PeriodicOn g (C t)) (hCs : ∀ t, 0 ≤ t → ∀ a, SmoothAlong 4 a (M a) (C t))
    (heat : ∀ t, 0 ≤ t → ∀ x, deriv (fun s => C s x) t = nu * ∑ a, partialDeriv 2 a (C t) x) (ε : ℝ) (hini : (c 0).array.Approximates (C 0) ε) (n : ℕ) :
    (c n).array.Approximates (C (n * dt)) (ε + n * dt * (T * dt / 2 + nu * ∑ a, M a * g.step a ^ 2 / 12)) := by
  refine C74_explicit_diffusion c hc g hgr hg nu dt hnu hdt ?_ hrun C T M hCt hCp hCs heat ε hini n
  rcases hnu.eq_or_lt with h0 | hpos
  · rw [← h0]; simp
  obtain ⟨m, b, hm, hmin, he⟩ := (C31_diffusion_step hd g nu).2 hpos.ne'
  rw [hddt] at he
  obtain rfl := Except.ok.inj he
  have hle' : dt ≤ m ^ 2 / (nu * 2 ^ d) := by exact_mod_cast hle
  have hm0 : 0 < m := by rw [hm]; exact hg.step_pos b
  have h1 : ∑ a, 1 / g.step a ^ 2 ≤ d * (1 / m ^ 2) := by
    refine (Finset.sum_le_sum fun a _ => one_div_le_one_div_of_le (by positivity) (pow_le_pow_left₀ hm0.le (hmin a) 2)).trans ?_
    simp
  have h2 : (2 * d : ℝ) ≤ 2 ^ d := by
    have : 2 * d ≤ 2 ^ d := by
      obtain ⟨k, rfl⟩ := Nat.exists_eq_succ_of_ne_zero hd
      have := Nat.lt_two_pow_self (n := k)
      rw [Nat.succ_eq_add_one, pow_succ]
      omega
    exact_mod_cast this
  rw [le_div_iff₀ (by positivity)] at hle'
  calc 2 * (nu * dt) * ∑ a, 1 / g.step a ^ 2 ≤ 2 * (nu * dt) * (d * (1 / m ^ 2)) := mul_le_mul_of_nonneg_left h1 (by positivity)
    _ = (nu * dt) * (2 * d) / m ^ 2 := by ring
    _ ≤ (nu * dt) * 2 ^ d / m ^ 2 := by gcongr
    _ ≤ 1 := by
      rw [div_le_one (by positivity)]
      linarith

omit [HasNan ℝ] in
theorem GridVariable.Periodic.supported' {u : GridVariable d ℝ} (hu : u.Periodic) : u.Supported := fun a => ⟨(hu.2 a).1, (hu.2 a).2, Or.inl (hu.1 a)⟩

/-- The backward Euler equation bounds its solution by its right hand side. -/
theorem implicit_stable {w : GridVariable d ℝ} (hw : w.Periodic) (κ : ℝ) (hκ : 0 ≤ κ) (B : ℝ)
    (hB : ∀ i : Idx d, InR w.array.shape i → |w.array.data i - κ * (lapP w).data i| ≤ B) (i : Idx d) (hi : InR w.array.shape i) : |w.array.data i| ≤ B := by
  let u : GridVariable d ℝ := ⟨⟨⟨w.array.shape, fun i => w.array.data i - κ * (lapP w).data i⟩, w.array.offset, w.array.grid⟩, w.bc⟩
  have hu : u.Periodic := hw
  have hbe : BackwardEuler u w κ 1 := ⟨rfl, rfl, rfl, rfl, ⟨_, laplacian_periodic hw, fun i _ => by rw [mul_one]⟩, fun i hi hni => absurd (by rw [periodic_interior hu]; exact hi) hni⟩
  have := C36_diffusion_max_principle u w κ 1 (by linarith) hu.supported' hbe (-B) B (fun j hj => abs_le.1 (hB j (by rw [periodic_interior hu] at hj; exact hj)))
    (fun a h => by rw [hu.1 a] at h; cases h) (fun a h => by rw [hu.1 a] at h; cases h) (fun a h => by rw [hu.1 a] at h; cases h) (fun a h => by rw [hu.1 a] at h; cases h) i hi
  exact abs_le.2 this

/-- **C74** Implicit (backward Euler) diffusion converges to the solution of the heat equation without any restriction on the time step. -/
theorem C74_implicit_diffusion (c : ℕ → GridVariable d ℝ) (hc : (c 0).Periodic) (g : Grid d ℝ) (hgr : (c 0).array.grid = g) (hg : g.Valid) (nu dt : ℝ) (hnu : 0 ≤ nu) (hdt : 0 ≤ dt)
    (hrun : ∀ n, BackwardEuler (c n) (c (n + 1)) nu dt)
    (C : ℝ → (Fin d → ℝ) → ℝ) (T : ℝ) (M : Fin d → ℝ) (hCt : SmoothInTime C T) (hCp : ∀ t, 0 ≤ t → PeriodicOn g (C t)) (hCs : ∀ t, 0 ≤ t → ∀ a, SmoothAlong 4 a (M a) (C t))
    (heat : ∀ t, 0 ≤ t → ∀ x, deriv (fun s => C s x) t = nu * ∑ a, partialDeriv 2 a (C t) x) (ε : ℝ) (hini : (c 0).array.Approximates (C 0) ε) (n : ℕ) :
    (c n).array.Approximates (C (n * dt)) (ε + n * dt * (T * dt / 2 + nu * ∑ a, M a * g.step a ^ 2 / 12)) := by
  have hlay : ∀ n, (c n).Periodic ∧ (c n).array.grid = g := fun n => by
    induction n with
    | zero => exact ⟨hc, hgr⟩
    | succ n ih => exact ⟨⟨by rw [(hrun n).bc]; exact ih.1.1, by rw [(hrun n).shape, (hrun n).grid]; exact ih.1.2⟩, (hrun n).grid.trans ih.2⟩
  induction n with
  | zero => simpa using hini
  | succ n ih =>
    have hw := hrun n
    obtain ⟨hp, hgn⟩ := hlay n
    obtain ⟨hp', hgn'⟩ := hlay (n + 1)
    have et : ((n + 1 : ℕ) : ℝ) * dt = n * dt + dt := by push_cast; ring
    have ht : 0 ≤ ((n + 1 : ℕ) : ℝ) * dt := by positivity
    set t := ((n + 1 : ℕ) : ℝ) * dt with htd
    let S := sampled (c (n + 1)) (C t)
    have hsp : S.Periodic := hp'
    obtain ⟨s, hs, h1, h2, h3, h4⟩ := C73_laplacian hsp (by show (c (n + 1)).array.grid.Valid; rw [hgn']; exact hg)
      (by show PeriodicOn (c (n + 1)).array.grid _; rw [hgn']; exact hCp _ ht) (sampled_samples _ _) M (hCs _ ht)
    rw [laplacian_periodic hsp] at hs
    obtain rfl := Except.ok.inj hs
    have hep : (errorOf (c (n + 1)) S).Periodic := hp'
    intro i hi
    refine implicit_stable hep (nu * dt) (by positivity) _ (fun j hj => ?_) i hi
    have hj' : InR (c (n + 1)).array.shape j := hj
    have hj0 : InR (c n).array.shape j := by rw [← hw.shape]; exact hj'
    rw [← lapP_error (c (n + 1)) S rfl rfl j]
    have heq := (hw.periodic hp j hj0).2
    have heq' : (c (n + 1)).array.data j - nu * dt * (lapP (c (n + 1))).data j = (c n).array.data j := by
      rw [← heq]
      show _ - nu * dt * (∑ a : Fin d, _ : ℝ) = _
      rw [hw.shape, hw.grid]
    have k1 := ih j hj0
    have k2 := h4 j hj
    rw [h1, h3] at k2
    have k3 := time_bound hCt ((c (n + 1)).array.grid.position (c (n + 1)).array.offset j) ht (dt := -dt) (by rw [et]; linarith [mul_nonneg (Nat.cast_nonneg (α := ℝ) n) hdt])
    rw [show t + -dt = n * dt by rw [et]; ring, heat t ht] at k3
    rw [← hw.offset, ← hw.grid] at k1
    set x := (c (n + 1)).array.grid.position (c (n + 1)).array.offset j with hx
    have k2' : |(lapP S).data j - ∑ a, partialDeriv 2 a (C t) x| ≤ ∑ a, M a * g.step a ^ 2 / 12 := by
      have e : S.array.grid = g := hgn'
      rw [e] at k2
      have e2 : g.position S.array.offset j = x := by rw [hx, hgn']; rfl
      rw [e2] at k2
      exact k2
    have k4 : |nu * dt * ((lapP S).data j - ∑ a, partialDeriv 2 a (C t) x)| ≤ nu * dt * ∑ a, M a * g.step a ^ 2 / 12 := by
      rw [abs_mul, abs_of_nonneg (by positivity : 0 ≤ nu * dt)]
      exact mul_le_mul_of_nonneg_left k2' (by positivity)
    show |(c (n + 1)).array.data j - C t x - nu * dt * ((lapP (c (n + 1))).data j - (lapP S).data j)| ≤ _
    have e : (c (n + 1)).array.data j - C t x - nu * dt * ((lapP (c (n + 1))).data j - (lapP S).data j) =
        ((c n).array.data j - C (n * dt) x) + (C (n * dt) x - (C t x + -dt * (nu * ∑ a, partialDeriv 2 a (C t) x))) + nu * dt * ((lapP S).data j - ∑ a, partialDeriv 2 a (C t) x) := by
      rw [← heq']
      ring
    rw [e]
    refine (abs_add_le _ _).trans ((add_le_add ((abs_add_le _ _).trans (add_le_add k1 k3)) k4).trans (le_of_eq ?_))
    rw [et]
    ring

end JaxCfd
