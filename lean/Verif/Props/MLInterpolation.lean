import Verif.Model.MLInterpolation
import Verif.Props.Interp
import Verif.Props.Impose
import Verif.Props.Metrics

/-!
# C26, C12: interpolation modules without parameters, scaling of grid variables
-/

namespace JaxCfd
variable {d : ℕ} {K : Type}

section
variable [Field K] [LinearOrder K] [IsStrictOrderedRing K] [HasNan K]

/-- **C26** The interpolation modules of `jax_cfd/ml` at the upper faces of a periodic variable: `linear` stays within any bounds of the data,
`upwind` is the cell the flow comes from, `lax_wendroff` without flow is the mean of the two cells, and `transformed` (by default
van-Leer-limited Lax-Wendroff) stays between the two cells under the CFL bound. -/
theorem C26_ml_modules (c : GridVariable d K) (h : c.Periodic) (v : Fin d → GridVariable d K) (ax : Fin d) (dt : K)
    (hv : FaceVelocity c (v ax) ax) (hdt : 0 ≤ dt) (hstep : 0 < c.array.grid.step ax)
    (hcfl : ∀ i, InR c.array.shape i → |(v ax).array.data i| * dt / c.array.grid.step ax ≤ 1) :
    ∃ l u w t, ML.linearModule c (upperFace c ax) v dt = .ok l ∧ ML.upwindModule c (upperFace c ax) v dt = .ok u ∧
      ML.laxWendroffModule c (upperFace c ax) v dt = .ok w ∧ (ML.transformed : InterpFn d K) c (upperFace c ax) v dt = .ok t ∧
      (∀ lo hi, (∀ i, InR c.array.shape i → lo ≤ c.array.data i ∧ c.array.data i ≤ hi) →
        ∀ i, InR c.array.shape i → lo ≤ l.array.data i ∧ l.array.data i ≤ hi) ∧
      (∀ i, InR c.array.shape i → u.array.data i =
        if 0 < (v ax).array.data i then c.array.data i else c.array.data (rollIdx c.array.shape ax 1 i)) ∧
      (∀ i, InR c.array.shape i → (v ax).array.data i = 0 →
        w.array.data i = (c.array.data i + c.array.data (rollIdx c.array.shape ax 1 i)) / 2) ∧
      ∀ i, InR c.array.shape i →
        min (c.array.data i) (c.array.data (rollIdx c.array.shape ax 1 i)) ≤ t.array.data i ∧
        t.array.data i ≤ max (c.array.data i) (c.array.data (rollIdx c.array.shape ax 1 i)) := by
  obtain ⟨l, hl⟩ : ∃ l, linear c (upperFace c ax) = .ok l := by
    obtain ⟨f, hf, -⟩ := linear_periodic (fun _ _ => True) (fun _ _ _ _ _ => trivial) h (upperFace c ax) trivial
    exact ⟨_, hf⟩
  obtain ⟨u, hu, -, -, hu1, -⟩ := C24_upwind_range c h v ax hv
  obtain ⟨w, hw, -, -, hw1⟩ := C25_lax_wendroff c h v ax dt hv hstep
  obtain ⟨t, ht, -, ht1⟩ := C26_van_leer_between c h v ax dt hv hdt hstep hcfl
  refine ⟨l, u, w, t, hl, hu, hw, ht, fun lo hi hb => ?_, hu1, fun i hi h0 => (hw1 i hi).1 (by rw [h0]; simp), ht1⟩
  obtain ⟨l', hl', -, hb'⟩ := C23_bounds c h (upperFace c ax) lo hi hb
  rw [hl] at hl'
  rw [Except.ok.inj hl']
  exact hb'

end

section
variable [Field K] [HasNan K]

/-- **C12** `fixed_scale_gridvar` multiplies every value off the Dirichlet walls by `rescaled_one`; values on a wall are the prescribed boundary
values, which are not scaled.  Layout and boundary conditions are kept. -/
theorem C12_fixed_scale_gridvar (one : K) (xs : List (GridVariable d K)) (h : ∀ x ∈ xs, BC.OnGrid x.bc x.array) :
    ∃ ys, ML.fixedScaleGridvar one xs = .ok ys ∧ List.Forall₂ (fun x y : GridVariable d K => y.bc = x.bc ∧ y.array.shape = x.array.shape ∧
      y.array.offset = x.array.offset ∧ y.array.grid = x.array.grid ∧
      (∀ i, InR x.array.shape i → (∀ a b, ¬ OnWall x.bc x.array i a b) → y.array.data i = x.array.data i * one) ∧
      ∀ i, InR x.array.shape i → ∀ a b, OnWall x.bc x.array i a b → (∀ c > a, ∀ b', ¬ OnWall x.bc x.array i c b') →
        y.array.data i = b) xs ys := by
  unfold ML.fixedScaleGridvar
  induction xs with
  | nil => exact ⟨[], rfl, .nil⟩
  | cons x xs ih =>
    obtain ⟨ys, hys, hr⟩ := ih fun y hy => h y (List.mem_cons_of_mem _ hy)
    obtain ⟨r, e, e1, e2, e3, e4, e5⟩ := C12_impose_bc x.bc (gmap (fun y => y * one) x.array) (h x List.mem_cons_self)
    refine ⟨⟨r, x.bc⟩ :: ys, ?_, .cons ⟨rfl, e1, e2, e3, fun i hi hw => e4 i hi hw, fun i hi a b hab hc => e5 i hi a b hab hc⟩ hr⟩
    rw [List.mapM_cons, e, hys]
    rfl

end
end JaxCfd
