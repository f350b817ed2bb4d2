import Verif.Props.AccuracyAdvection
import Verif.Props.TimeStep
import Verif.Props.ImplicitNS

/-!
# C74: convergence to the solution of the partial differential equation
-/

namespace JaxCfd
variable {d : ℕ} [HasNan ℝ]

/-- The samples of a function at the points of a variable. -/
noncomputable def sampled (u : GridVariable d ℝ) (f : (Fin d → ℝ) → ℝ) : GridVariable d ℝ :=
  ⟨⟨⟨u.array.shape, fun i => f (u.array.grid.position u.array.offset i)⟩, u.array.offset, u.array.grid⟩, u.bc⟩

omit [HasNan ℝ] in
theorem sampled_samples (u : GridVariable d ℝ) (f : (Fin d → ℝ) → ℝ) : (sampled u f).array.Samples f := fun _ _ => rfl

/-- The difference of two variables with the layout of the first. -/
def errorOf (u w : GridVariable d ℝ) : GridVariable d ℝ := ⟨⟨⟨u.array.shape, fun i => u.array.data i - w.array.data i⟩, u.array.offset, u.array.grid⟩, u.bc⟩

omit [HasNan ℝ] in
theorem EulerStep.periodic {u w : GridVariable d ℝ} {r : GridArray d ℝ} {dt : ℝ} (h : EulerStep u r dt w) (hu : u.Periodic) : w.Periodic :=
  ⟨by rw [h.1]; exact hu.1, by rw [h.2.1, h.2.2.1]; exact hu.2⟩

omit [HasNan ℝ] in
theorem lapP_error (u w : GridVariable d ℝ) (hs : w.array.shape = u.array.shape) (hg : w.array.grid = u.array.grid) (i : Idx d) :
    (lapP u).data i - (lapP w).data i = (lapP (errorOf u w)).data i := by
  have e : ∀ x : GridVariable d ℝ, (lapP x).data i = ∑ a, (x.array.data (rollIdx x.array.shape a 1 i) + x.array.data (rollIdx x.array.shape a (-1) i) -
      2 * x.array.data i) / x.array.grid.step a ^ 2 := fun _ => rfl
  have e1 : (errorOf u w).array.shape = u.array.shape := rfl
  have e2 : (errorOf u w).array.grid = u.array.grid := rfl
  have e3 : ∀ j, (errorOf u w).array.data j = u.array.data j - w.array.data j := fun _ => rfl
  rw [e, e, e, ← Finset.sum_sub_distrib]
  refine Finset.sum_congr rfl fun a _ => ?_
  rw [hs, hg, e1, e2, e3, e3, e3]
  ring

/-- Taylor expansion in time. -/
theorem time_bound {C : ℝ → (Fin d → ℝ) → ℝ} {T : ℝ} (hC : SmoothInTime C T) (x : Fin d → ℝ) {t dt : ℝ} (ht : 0 ≤ t) (htd : 0 ≤ t + dt) :
    |C (t + dt) x - (C t x + dt * deriv (fun s => C s x) t)| ≤ T * dt ^ 2 / 2 := by
  have := taylor_bound_on (n := 1) (hC.1 x) t dt fun s hs => hC.2 x s ((le_min ht htd).trans hs.1.le)
  simp only [Finset.sum_range_succ, Finset.sum_range_zero, Nat.factorial] at this
  norm_num [sq_abs] at this
  rwa [mul_comm dt]

/-- One explicit step: consistency, and stability of the step applied to the error, give the error after the step. -/
theorem explicit_step {u w : GridVariable d ℝ} {r s : GridArray d ℝ} {dt : ℝ} (hdt : 0 ≤ dt) (hw : EulerStep u r dt w) {C : ℝ → (Fin d → ℝ) → ℝ} {T : ℝ} (hC : SmoothInTime C T) {t : ℝ} (ht : 0 ≤ t)
    {D : (Fin d → ℝ) → ℝ} {τ E : ℝ} (hD : ∀ x, deriv (fun s => C s x) t = D x) (hsg : s.grid = u.array.grid) (hss : s.shape = u.array.shape) (hso : s.offset = u.array.offset)
    (hτ : s.Approximates D τ)
    (hE : ∀ i : Idx d, InR u.array.shape i → |u.array.data i - C t (u.array.grid.position u.array.offset i) + dt * (r.data i - s.data i)| ≤ E) :
    w.array.Approximates (C (t + dt)) (E + dt * (T * dt / 2 + τ)) := by
  intro i hi
  rw [hw.2.2.1] at hi
  rw [hw.2.2.2.2 i hi, hw.2.1, hw.2.2.2.1]
  set x := u.array.grid.position u.array.offset i with hx
  have h1 := hE i hi
  have h2 := hτ i (by rw [hss]; exact hi)
  rw [hsg, hso, ← hx] at h2
  have h3 := time_bound hC x ht (add_nonneg ht hdt)
  rw [hD] at h3
  have h4 : |dt * (s.data i - D x)| ≤ dt * τ := by rw [abs_mul, abs_of_nonneg hdt]; exact mul_le_mul_of_nonneg_left h2 hdt
  rw [abs_le] at *
  constructor <;> nlinarith [h1.1, h1.2, h3.1, h3.2, h4.1, h4.2]

/-- The explicit diffusion step does not increase the largest error. -/
theorem explicit_diffusion_stable {u : GridVariable d ℝ} (hu : u.Periodic) (κ : ℝ) (hκ : 0 ≤ κ) (hc : 2 * κ * ∑ a, 1 / u.array.grid.step a ^ 2 ≤ 1) (E : ℝ)
    (hE : ∀ i : Idx d, InR u.array.shape i → |u.array.data i| ≤ E) (i : Idx d) (hi : InR u.array.shape i) : |u.array.data i + κ * (lapP u).data i| ≤ E := by
  have e : u.array.data i + κ * (lapP u).data i = (1 - 2 * κ * ∑ a, 1 / u.array.grid.step a ^ 2) * u.array.data i +
      ∑ a, κ / u.array.grid.step a ^ 2 * (u.array.data (rollIdx u.array.shape a 1 i) + u.array.data (rollIdx u.array.shape a (-1) i)) := by
    show u.array.data i + κ * (∑ a : Fin d, _ : ℝ) = _
    rw [Finset.mul_sum, Finset.mul_sum, sub_mul, one_mul, Finset.sum_mul, sub_add, ← Finset.sum_sub_distrib, sub_eq_add_neg, ← Finset.sum_neg_distrib]
    congr 1
    exact Finset.sum_congr rfl fun a _ => by ring
  rw [e]
  have hE0 : 0 ≤ E := (abs_nonneg _).trans (hE i hi)
  calc _ ≤ (1 - 2 * κ * ∑ a, 1 / u.array.grid.step a ^ 2) * E + ∑ a, κ / u.array.grid.step a ^ 2 * (2 * E) := by
        refine (abs_add_le _ _).trans (add_le_add ?_ ((Finset.abs_sum_le_sum_abs _ _).trans (Finset.sum_le_sum fun a _ => ?_)))
        · rw [abs_mul, abs_of_nonneg (by linarith)]
          exact mul_le_mul_of_nonneg_left (hE i hi) (by linarith)
        · have hk : 0 ≤ κ / u.array.grid.step a ^ 2 := by positivity
          rw [abs_mul, abs_of_nonneg hk]
          refine mul_le_mul_of_nonneg_left ((abs_add_le _ _).trans ?_) hk
          have := hE _ (rollIdx_inR hi a 1)
          have := hE _ (rollIdx_inR hi a (-1))
          linarith
    _ = E := by
        rw [sub_mul, one_mul, sub_add, Finset.mul_sum, Finset.sum_mul, ← Finset.sum_sub_distrib]
        rw [Finset.sum_eq_zero fun a _ => by ring, sub_zero]

/-- **C74** Explicit diffusion converges to the solution of the heat equation: as long as `2 ν dt Σ 1/h² ≤ 1`, the error after `n` steps is at most the initial error plus
`n dt (T dt / 2 + ν Σ M h² / 12)`. -/
theorem C74_explicit_diffusion (c : ℕ → GridVariable d ℝ) (hc : (c 0).Periodic) (g : Grid d ℝ) (hgr : (c 0).array.grid = g) (hg : g.Valid) (nu dt : ℝ) (hnu : 0 ≤ nu) (hdt : 0 ≤ dt)
    (hst : 2 * (nu * dt) * ∑ a, 1 / g.step a ^ 2 ≤ 1) (hrun : ∀ n, ∃ r, diffuse (c n) nu = .ok r ∧ EulerStep (c n) r dt (c (n + 1)))
    (C : ℝ → (Fin d → ℝ) → ℝ) (T : ℝ) (M : Fin d → ℝ) (hCt : SmoothInTime C T) (hCp : ∀ t, 0 ≤ t → PeriodicOn g (C t)) (hCs : ∀ t, 0 ≤ t → ∀ a, SmoothAlong 4 a (M a) (C t))
    (heat : ∀ t, 0 ≤ t → ∀ x, deriv (fun s => C s x) t = nu * ∑ a, partialDeriv 2 a (C t) x) (ε : ℝ) (hini : (c 0).array.Approximates (C 0) ε) (n : ℕ) :
    (c n).array.Approximates (C (n * dt)) (ε + n * dt * (T * dt / 2 + nu * ∑ a, M a * g.step a ^ 2 / 12)) := by
  have hlay : ∀ n, (c n).Periodic ∧ (c n).array.grid = g := fun n => by
    induction n with
    | zero => exact ⟨hc, hgr⟩
    | succ n ih =>
      obtain ⟨r, -, hr⟩ := hrun n
      exact ⟨hr.periodic ih.1, hr.2.1.trans ih.2⟩
  induction n with
  | zero => simpa using hini
  | succ n ih =>
    obtain ⟨r, hr, hw⟩ := hrun n
    obtain ⟨hp, hgn⟩ := hlay n
    have ht : 0 ≤ n * dt := by positivity
    have hsp : (sampled (c n) (C (n * dt))).Periodic := hp
    obtain ⟨s, hs, h1, h2, h3, h4⟩ := C73_diffuse hsp (by show (c n).array.grid.Valid; rw [hgn]; exact hg) (by show PeriodicOn (c n).array.grid _; rw [hgn]; exact hCp _ ht)
      (sampled_samples _ _) M (hCs _ ht) nu
    have := explicit_step hdt hw hCt ht (heat _ ht) h1 h2 h3 h4 (E := ε + n * dt * (T * dt / 2 + nu * ∑ a, M a * g.step a ^ 2 / 12)) (fun i hi => ?_)
    · have e : ((n + 1 : ℕ) : ℝ) * dt = n * dt + dt := by push_cast; ring
      rw [e]
      intro i hi
      refine (this i hi).trans (le_of_eq ?_)
      have eg : (sampled (c n) (C (n * dt))).array.grid = g := hgn
      rw [eg, abs_of_nonneg hnu]
      ring
    · have hep : (errorOf (c n) (sampled (c n) (C (n * dt)))).Periodic := hp
      have := explicit_diffusion_stable hep (nu * dt) (by positivity) (by show 2 * (nu * dt) * ∑ a, 1 / (c n).array.grid.step a ^ 2 ≤ 1; rw [hgn]; exact hst) _ (fun j hj => ih j hj) i hi
      refine le_trans (le_of_eq ?_) this
      unfold diffuse at hr hs
      rw [laplacian_periodic hp] at hr
      rw [laplacian_periodic hsp] at hs
      obtain rfl := Except.ok.inj hr
      obtain rfl := Except.ok.inj hs
      congr 1
      show (c n).array.data i - (sampled (c n) (C (n * dt))).array.data i + dt * (nu * (lapP (c n)).data i - nu * (lapP (sampled (c n) (C (n * dt)))).data i) =
        (c n).array.data i - (sampled (c n) (C (n * dt))).array.data i + nu * dt * (lapP (errorOf (c n) (sampled (c n) (C (n * dt))))).data i
      congr 1
      rw [← lapP_error (c n) (sampled (c n) (C (n * dt))) rfl rfl i]
      ring

end JaxCfd
