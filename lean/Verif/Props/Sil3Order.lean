import Verif.Props.ImexSchemes

/-!
# C75: `imex_rk_sil3` is not third-order accurate for nonlinear explicit terms
-/

namespace JaxCfd

/-- **C75** The documentation of `imex_rk_sil3` promises third order for the explicit terms.  For the explicit system `τ' = 1, y' = τ²` with solution `(t, t³/3)` the error after
any number of steps of any size is exactly `t dt² / 18`: only second order. -/
theorem C75_sil3_not_third_order (dt : ℝ) (u : ℕ → ℝ × ℝ) (h0 : u 0 = (0, 0))
    (hrun : ∀ n, imexSIL3 (fun x : ℝ × ℝ => ((1 : ℝ), x.1 ^ 2)) (fun _ => 0) (fun x _ => x) dt (u n) = .ok (u (n + 1))) (n : ℕ) :
    u n = (n * dt, (n * dt) ^ 3 / 3 + n * dt * dt ^ 2 / 18) := by
  induction n with
  | zero => rw [h0]; simp
  | succ n ih =>
    have hG : ∀ h : ℝ, Spec.SolvesImplicit (fun _ : ℝ × ℝ => (0 : ℝ × ℝ)) (fun x (_ : ℝ) => x) h := fun h x => by simp
    obtain ⟨Y1, Y2, r, hr, h1, h2, h3⟩ := C39_sil3 (fun x : ℝ × ℝ => ((1 : ℝ), x.1 ^ 2)) (fun _ => 0) (fun x _ => x) dt (hG _) (hG _) (hG _) (u n)
    rw [hrun n] at hr
    rw [Except.ok.inj hr, h3, h2, h1, ih]
    ext
    · simp
      ring
    · simp
      ring

/-- the run exists: every step succeeds -/
example (dt : ℝ) (x : ℝ × ℝ) : ∃ r, imexSIL3 (fun x : ℝ × ℝ => ((1 : ℝ), x.1 ^ 2)) (fun _ => 0) (fun x _ => x) dt x = .ok r := by
  have hG : ∀ h : ℝ, Spec.SolvesImplicit (fun _ : ℝ × ℝ => (0 : ℝ × ℝ)) (fun x (_ : ℝ) => x) h := fun h x => by simp
  obtain ⟨Y1, Y2, r, hr, -⟩ := C39_sil3 (fun x : ℝ × ℝ => ((1 : ℝ), x.1 ^ 2)) (fun _ => 0) (fun x _ => x) dt (hG _) (hG _) (hG _) x
  exact ⟨r, hr⟩

end JaxCfd
