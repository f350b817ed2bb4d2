import Verif.Props.ConvergenceImplicit
import Verif.Props.SemiLagrangian

/-!
# C74: convergence of upwind and semi-Lagrangian advection
-/

namespace JaxCfd
variable {d : ℕ} [HasNan ℝ]

/-- Upwind advection is linear in the scalar. -/
theorem upwind_error (hd : d ≠ 0) {u w : GridVariable d ℝ} (hu : u.Periodic) (hw : w.Periodic) (hs : w.array.shape = u.array.shape) (hg : w.array.grid = u.array.grid)
    (ho : w.array.offset = u.array.offset) {v : Fin d → GridVariable d ℝ} (hv : StaggeredPeriodic u v) (dt : ℝ) {p q r : GridArray d ℝ} (hp : advectUpwind u v dt = .ok p)
    (hq : advectUpwind w v dt = .ok q) (hr : advectUpwind (errorOf u w) v dt = .ok r) (i : Idx d) : p.data i - q.data i = r.data i := by
  have hvw : StaggeredPeriodic w v := fun a => ⟨(hv a).1, (hv a).2.1, by rw [hs]; exact (hv a).2.2.1, by rw [hg]; exact (hv a).2.2.2.1, by rw [ho]; exact (hv a).2.2.2.2⟩
  have key : ∀ x : GridVariable d ℝ, x.Periodic → StaggeredPeriodic x v → ∀ r, advectUpwind x v dt = .ok r → x.array.shape = u.array.shape → x.array.grid = u.array.grid →
      r.data i = -∑ a, ((if 0 < (v a).array.data i then x.array.data (rollIdx u.array.shape a 0 i) else x.array.data (rollIdx u.array.shape a 1 i)) * (v a).array.data i -
        (if 0 < (v a).array.data (rollIdx u.array.shape a (-1) i) then x.array.data (rollIdx u.array.shape a 0 (rollIdx u.array.shape a (-1) i))
          else x.array.data (rollIdx u.array.shape a 1 (rollIdx u.array.shape a (-1) i))) * (v a).array.data (rollIdx u.array.shape a (-1) i)) / u.array.grid.step a := by
    intro x hx hvx r hr e1 e2
    obtain ⟨L, U, W, -, hU, -, h⟩ := schemes_staggered hd hx hvx dt
    have h1 := h (false, true) _ rfl
    simp only [if_true, Bool.false_eq_true, if_false] at h1
    rw [hr] at h1
    rw [Except.ok.inj h1]
    dsimp only
    rw [e1, e2]
    congr 1
    refine Finset.sum_congr rfl fun a _ => ?_
    rw [hU a, e1]
  rw [key u hu hv p hp rfl rfl, key w hw hvw q hq hs hg, key (errorOf u w) hu hv r hr rfl rfl, neg_sub_neg, ← Finset.sum_sub_distrib, ← Finset.sum_neg_distrib]
  refine Finset.sum_congr rfl fun a _ => ?_
  have e3 : ∀ j, (errorOf u w).array.data j = u.array.data j - w.array.data j := fun _ => rfl
  simp only [e3]
  split_ifs <;> ring

/-- **C74** Upwind advection by a divergence-free velocity converges to the solution of the transport equation, to first order, as long as no cell is emptied in one step (`dt * outflow ≤ 1`). -/
theorem C74_upwind (hd : d ≠ 0) (c : ℕ → GridVariable d ℝ) (hc : (c 0).Periodic) (g : Grid d ℝ) (hgr : (c 0).array.grid = g) (hg : g.Valid) (v : Fin d → GridVariable d ℝ)
    (hv : StaggeredPeriodic (c 0) v) (V : Fin d → (Fin d → ℝ) → ℝ) (hV : ∀ a, PeriodicOn g (V a)) (hvs : ∀ a, (v a).array.Samples (V a))
    (dv : GridArray d ℝ) (hdiv : divergence (List.ofFn v) = .ok dv) (hdv : ∀ i, InR (c 0).array.shape i → dv.data i = 0)
    (dt : ℝ) (hdt : 0 ≤ dt) (hcfl : ∀ i, InR (c 0).array.shape i → dt * outflow (c 0) v i ≤ 1)
    (hrun : ∀ n, ∃ r, advectUpwind (c n) v dt = .ok r ∧ EulerStep (c n) r dt (c (n + 1)))
    (C : ℝ → (Fin d → ℝ) → ℝ) (T : ℝ) (Q₀ Q₁ P₁ P₂ P₃ M : Fin d → ℝ) (hCt : SmoothInTime C T) (hCp : ∀ t, 0 ≤ t → PeriodicOn g (C t))
    (hCs : ∀ t, 0 ≤ t → FluxBounds (C t) V Q₀ Q₁ P₁ P₂ P₃ M)
    (transport : ∀ t, 0 ≤ t → ∀ x, deriv (fun s => C s x) t = -∑ a, partialDeriv 1 a (fun y => V a y * C t y) x) (ε : ℝ) (hini : (c 0).array.Approximates (C 0) ε) (n : ℕ) :
    (c n).array.Approximates (C (n * dt))
      (ε + n * dt * (T * dt / 2 + ∑ a, ((Q₀ a * P₂ a + Q₁ a * P₁ a) / 2 * g.step a + (M a / 24 + (Q₀ a * P₃ a + Q₁ a * P₂ a) / 8) * g.step a ^ 2))) := by
  have hlay : ∀ n, (c n).Periodic ∧ (c n).array.grid = g ∧ (c n).array.shape = (c 0).array.shape ∧ (c n).array.offset = (c 0).array.offset := fun n => by
    induction n with
    | zero => exact ⟨hc, hgr, rfl, rfl⟩
    | succ n ih =>
      obtain ⟨r, -, hr⟩ := hrun n
      exact ⟨hr.periodic ih.1, hr.2.1.trans ih.2.1, hr.2.2.1.trans ih.2.2.1, hr.2.2.2.1.trans ih.2.2.2⟩
  induction n with
  | zero => simpa using hini
  | succ n ih =>
    obtain ⟨r, hr, hw⟩ := hrun n
    obtain ⟨hp, hgn, hsn, hon⟩ := hlay n
    have ht : 0 ≤ n * dt := by positivity
    have hvn : StaggeredPeriodic (c n) v :=
      fun a => ⟨(hv a).1, (hv a).2.1, by rw [hsn]; exact (hv a).2.2.1, by rw [hgn, ← hgr]; exact (hv a).2.2.2.1, by rw [hon]; exact (hv a).2.2.2.2⟩
    let S := sampled (c n) (C (n * dt))
    have hsp : S.Periodic := hp
    have hvS : StaggeredPeriodic S v := hvn
    obtain ⟨s, hs, h1, h2, h3, h4⟩ := C73_advect_upwind hd hsp (by show (c n).array.grid.Valid; rw [hgn]; exact hg) hvS (by show PeriodicOn (c n).array.grid _; rw [hgn]; exact hCp _ ht)
      (by show ∀ a, PeriodicOn (c n).array.grid _; rw [hgn]; exact hV) (sampled_samples _ _) hvs Q₀ Q₁ P₁ P₂ P₃ M (hCs _ ht) dt
    have := explicit_step hdt hw hCt ht (transport _ ht) h1 h2 h3 h4 (E := ε + n * dt * (T * dt / 2 + ∑ a, ((Q₀ a * P₂ a + Q₁ a * P₁ a) / 2 * g.step a +
      (M a / 24 + (Q₀ a * P₃ a + Q₁ a * P₂ a) / 8) * g.step a ^ 2))) (fun i hi => ?_)
    · have e : ((n + 1 : ℕ) : ℝ) * dt = n * dt + dt := by push_cast; ring
      rw [e]
      intro i hi
      refine (this i hi).trans (le_of_eq ?_)
      have eg : S.array.grid = g := hgn
      rw [eg]
      ring
    · have hep : (errorOf (c n) S).Periodic := hp
      have hve : StaggeredPeriodic (errorOf (c n) S) v := hvn
      obtain ⟨e, he, hes, heb⟩ := C30_upwind_maximum_principle hd (errorOf (c n) S) hep v hve dt hdt (fun a => by show 0 < (c n).array.grid.step a; rw [hgn]; exact hg.step_pos a) dv hdiv
        (fun i hi => hdv i (by rw [← hsn]; exact hi)) (fun i hi => by
          have := hcfl i (by rw [← hsn]; exact hi)
          unfold outflow at this ⊢
          show dt * ∑ a, (max ((v a).array.data i) 0 + max (-(v a).array.data (rollIdx (c n).array.shape a (-1) i)) 0) / (c n).array.grid.step a ≤ 1
          rw [hsn, hgn, ← hgr]
          exact this) _ _ (fun i hi => abs_le.1 (ih i hi))
      have hlin := upwind_error hd hp hsp rfl rfl rfl hvn dt hr hs he i
      have := heb i hi
      rw [hlin]
      exact abs_le.2 this

end JaxCfd
