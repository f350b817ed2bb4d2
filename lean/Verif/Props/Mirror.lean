import Verif.Lemmas.Mirror
import Verif.Props.TranslationTrajectory

/-!
# C78: the periodic solver commutes with reflections
-/

namespace JaxCfd
variable {d : ℕ} {ax : Fin d}

/-- **C78** `mirrorIdx` is the reflection of positions: the coordinates along `ax` of a cell and of its mirror image add up to twice the lower end of the domain plus a multiple of its
length; the other coordinates agree. -/
theorem C78_mirror_position (g : Grid d ℝ) (hg : g.Valid) (o : Fin d → ℚ) (m : ℤ) (hm : (m : ℚ) = 2 * o ax) (i : Idx d) :
    (∃ k : ℤ, g.position o i ax + g.position o (mirrorIdx g.shape ax m i) ax = 2 * (g.domain ax).1 + k * ((g.domain ax).2 - (g.domain ax).1)) ∧
      ∀ b, b ≠ ax → g.position o (mirrorIdx g.shape ax m i) b = g.position o i b := by
  refine ⟨?_, fun b hb => by unfold Grid.position mirrorIdx; rw [Function.update_of_ne hb]⟩
  have hn : ((g.shape ax : ℕ) : ℝ) ≠ 0 := by have := (hg ax).1; positivity
  have hL : (g.domain ax).2 - (g.domain ax).1 = g.shape ax * g.step ax := by
    unfold Grid.step
    field_simp
  refine ⟨-((-(i ax) - m) / (g.shape ax : ℤ)), ?_⟩
  have e := Int.emod_add_mul_ediv (-(i ax) - m) (g.shape ax : ℤ)
  have e' : (((-(i ax) - m) % (g.shape ax : ℤ) : ℤ) : ℝ) = -(i ax) - m - g.shape ax * ((-(i ax) - m) / (g.shape ax : ℤ) : ℤ) := by
    rw [eq_sub_iff_add_eq]
    exact_mod_cast e
  have hm' : (m : ℝ) = 2 * (o ax : ℝ) := by exact_mod_cast congrArg (fun q : ℚ => (q : ℝ)) hm
  unfold Grid.position mirrorIdx
  rw [Function.update_self, hL, e', hm']
  push_cast
  ring

theorem RelE.of_ok {α β : Type} {R : α → β → Prop} {x : Except Err α} {y : Except Err β} (h : ∃ a b, x = .ok a ∧ y = .ok b ∧ R a b) : RelE R x y := by
  obtain ⟨a, b, rfl, rfl, hab⟩ := h
  exact RelE.ok hab

theorem FieldMirrored.layout [HasNan ℝ] {u v : Fin d → GridVariable d ℝ} (h : FieldMirrored ax u v) : SameLayout u v := fun a => ⟨(h a).2.1, (h a).2.2.1, (h a).1, (h a).2.2.2.1⟩

theorem FieldMirrored.periodicField [HasNan ℝ] {g : Grid d ℝ} {u v : Fin d → GridVariable d ℝ} (h : FieldMirrored ax u v) (hu : PeriodicField g u) : PeriodicField g v :=
  SameLayout.periodicField hu h.layout

theorem faceIndex_offset {g : Grid d ℝ} {u : Fin d → GridVariable d ℝ} (hu : PeriodicField g u) (a : Fin d) : (faceIndex ax a : ℚ) = 2 * (u a).array.offset ax := by
  rw [(hu.1 a).2.2 ax]
  unfold faceIndex
  by_cases h : a = ax
  · rw [if_pos h, if_pos h.symm]; norm_num
  · rw [if_neg h, if_neg fun e => h e.symm]; norm_num

theorem FieldMirrored.data {g : Grid d ℝ} {u v : Fin d → GridVariable d ℝ} (h : FieldMirrored ax u v) (hu : PeriodicField g u) : MirrorData g.shape ax (fieldData u) (fieldData v) := by
  intro a i hi
  obtain ⟨m, hm, hd⟩ := (h a).2.2.2.2
  have : m = faceIndex ax a := by
    have e := hm.trans (faceIndex_offset hu a).symm
    exact_mod_cast e
  subst this
  have := hd i (by rw [(hu.1 a).2.1]; exact hi)
  rw [(hu.1 a).2.1] at this
  exact this

theorem FieldMirrored.of_data {g : Grid d ℝ} {u v : Fin d → GridVariable d ℝ} (hu : PeriodicField g u) (hv : PeriodicField g v) (h : MirrorData g.shape ax (fieldData u) (fieldData v)) :
    FieldMirrored ax u v := fun a =>
  ⟨(hv.2 a).trans (hu.2 a).symm, funext fun b => ((hv.1 a).2.2 b).trans ((hu.1 a).2.2 b).symm, (hv.1 a).1.trans (hu.1 a).1.symm, (hv.1 a).2.1.trans (hu.1 a).2.1.symm, faceIndex ax a, faceIndex_offset hu a,
    fun i hi => by rw [(hu.1 a).2.1] at hi ⊢; exact h a i hi⟩

/-- `f` and `f'` do the same on the two sides of the mirror normal to `ax`: for periodic velocity fields on `g`, the mirror image of the argument gives the mirror image of the result, or
the same exception. -/
def MirrorsTo (g : Grid d ℝ) (ax : Fin d) (f f' : (Fin d → GridVariable d ℝ) → Except Err (Fin d → GridVariable d ℝ)) : Prop :=
  ∀ u u', PeriodicField g u → FieldMirrored ax u u' → RelE (FieldMirrored ax) (f u) (f' u')

/-- The same for functions that return tendencies. -/
def TendencyMirrorsTo (g : Grid d ℝ) (ax : Fin d) (f f' : (Fin d → GridVariable d ℝ) → Except Err (Fin d → GridArray d ℝ)) : Prop :=
  ∀ u u', PeriodicField g u → FieldMirrored ax u u' → RelE (TendencyMirrored ax) (f u) (f' u')

/-- The function commutes with the reflection, including the exceptions it raises. -/
def CommutesWithMirror (g : Grid d ℝ) (ax : Fin d) (f : (Fin d → GridVariable d ℝ) → Except Err (Fin d → GridVariable d ℝ)) : Prop := MirrorsTo g ax f f

/-- The same for functions that return tendencies. -/
def TendencyCommutesMirror (g : Grid d ℝ) (ax : Fin d) (f : (Fin d → GridVariable d ℝ) → Except Err (Fin d → GridArray d ℝ)) : Prop := TendencyMirrorsTo g ax f f

section
variable [HasNan ℝ]

/-- **C78** The divergence of the mirror image of a velocity field is the mirror image of the divergence. -/
theorem C78_divergence (hd : d ≠ 0) (g : Grid d ℝ) (hs : ∀ a, 0 < g.shape a) (u u' : Fin d → GridVariable d ℝ) (hu : PeriodicField g u) (h : FieldMirrored ax u u') :
    ∃ D D', divergence (List.ofFn u) = .ok D ∧ divergence (List.ofFn u') = .ok D' ∧ D.Mirrored ax 1 D' := by
  refine ⟨_, _, hu.divergence hd hs, (h.periodicField hu).divergence hd hs, rfl, rfl, rfl, 1, by norm_num, fun i hi => ?_⟩
  have := dDiv_mirror (h := g.step) (h.data hu) hi
  rw [one_mul]
  exact this

/-- **C78** The Laplacian, and explicit diffusion, of the mirror image of a periodic quantity. -/
theorem C78_diffuse (u u' : GridVariable d ℝ) (hu : u.Periodic) (hb : u'.bc = u.bc) (σ : ℝ) (h : u.array.Mirrored ax σ u'.array) (nu : ℝ) :
    ∃ r r', diffuse u nu = .ok r ∧ diffuse u' nu = .ok r' ∧ r.Mirrored ax σ r' := by
  obtain ⟨ho, hg, hs, m, hm, hdat⟩ := h
  have hu' : u'.Periodic := ⟨by rw [hb]; exact hu.1, by rw [hs, hg]; exact hu.2⟩
  unfold diffuse
  refine ⟨gmap (fun x => nu * x) (lapP u), gmap (fun x => nu * x) (lapP u'), by rw [laplacian_periodic hu]; rfl, by rw [laplacian_periodic hu']; rfl, ho, hg, hs, m, hm, fun i hi => ?_⟩
  have := dLap_mirror (h := u.array.grid.step) hdat hi
  show nu * (lapP u').data i = σ * (nu * (lapP u).data (mirrorIdx u.array.shape ax m i))
  have e : (lapP u').data i = dLap u.array.shape u.array.grid.step u'.array.data i := by
    show (∑ b : Fin d, _ : ℝ) = _
    rw [hg, hs]
    rfl
  rw [e, this]
  show nu * (σ * dLap _ _ _ _) = σ * (nu * dLap _ _ _ _)
  ring

theorem vanLeer_mirror (hd : d ≠ 0) {c c' : GridVariable d ℝ} (hc : c.Periodic) (hb : c'.bc = c.bc) {σ : ℝ} (hσ : σ = 1 ∨ σ = -1) {A A' : Fin d → GridVariable d ℝ} (hA : StaggeredPeriodic c A)
    (hA' : StaggeredPeriodic c' A') {m : ℤ} (hl : c'.array.offset = c.array.offset ∧ c'.array.grid = c.array.grid ∧ c'.array.shape = c.array.shape)
    (hm : (m : ℚ) = 2 * c.array.offset ax) (hcd : ∀ i, InR c.array.shape i → c'.array.data i = σ * c.array.data (mirrorIdx c.array.shape ax m i))
    (hAd : ∀ a i, InR c.array.shape i → (A' a).array.data i = mirrorSign ax a * (A a).array.data (mirrorIdx c.array.shape ax (m + if a = ax then 1 else 0) i)) (dt : ℝ) :
    ∃ r r', advectVanLeerUsingLimiters c A dt = .ok r ∧ advectVanLeerUsingLimiters c' A' dt = .ok r' ∧ r.Mirrored ax σ r' := by
  have hc' : c'.Periodic := ⟨by rw [hb]; exact hc.1, by rw [hl.2.2, hl.2.1]; exact hc.2⟩
  obtain ⟨r, h1, h2, h3, h4, h5⟩ := vanLeer_closed hd hc hA dt
  obtain ⟨r', h1', h2', h3', h4', h5'⟩ := vanLeer_closed hd hc' hA' dt
  have hpos : ∀ a, 0 < c.array.shape a := fun a => by rw [(hc.2 a).1]; exact (hc.2 a).2
  refine ⟨r, r', h1, h1', by rw [h4', h4]; exact hl.1, by rw [h2', h2]; exact hl.2.1, by rw [h3', h3]; exact hl.2.2, m, by rw [h4]; exact hm, fun i hi => ?_⟩
  rw [h3] at hi ⊢
  rw [h5' i (by rw [hl.2.2]; exact hi), h5 _ (mirrorIdx_inR hpos m hi), hl.2.1, hl.2.2, mul_neg, Finset.mul_sum]
  refine congrArg Neg.neg (Finset.sum_congr rfl fun a _ => ?_)
  have key := fun (j : Idx d) (hj : InR c.array.shape j) => limFlux_mirror (s := c.array.shape) (ax := ax) hσ a (dt / c.array.grid.step a) hcd (hAd a) hj
  have := flux_mirror (s := c.array.shape) (ax := ax)
    (F := fun j => limFlux (dt / c.array.grid.step a) ((A a).array.data j) (c.array.data (rollIdx c.array.shape a (-1) j)) (c.array.data j) (c.array.data (rollIdx c.array.shape a 1 j))
      (c.array.data (rollIdx c.array.shape a 2 j)))
    (F' := fun j => limFlux (dt / c.array.grid.step a) ((A' a).array.data j) (c'.array.data (rollIdx c.array.shape a (-1) j)) (c'.array.data j) (c'.array.data (rollIdx c.array.shape a 1 j))
      (c'.array.data (rollIdx c.array.shape a 2 j))) (σ := σ) (m := m) a key hi
  have hiM := mirrorIdx_inR (ax := ax) hpos m hi
  have E : ∀ j, InR c.array.shape j → rollIdx c.array.shape a (-1 + 1) j = j := fun j hj => by rw [show (-1 + 1 : ℤ) = 0 by norm_num]; exact rollIdx_zero hj a
  simp only [rollIdx_add, E i hi, E _ hiM, show (-1 + -1 : ℤ) = -2 by norm_num, show (-1 + 2 : ℤ) = 1 by norm_num] at this
  rw [this]
  ring

/-- **C78** The van Leer scheme commutes with reflections: mirroring the scalar and the velocities mirrors the tendency.  The scalar may be even (`σ = 1`) or odd. -/
theorem C78_advect_van_leer (hd : d ≠ 0) (c c' : GridVariable d ℝ) (hc : c.Periodic) (hb : c'.bc = c.bc) (σ : ℝ) (hσ : σ = 1 ∨ σ = -1) (h : c.array.Mirrored ax σ c'.array)
    (v v' : Fin d → GridVariable d ℝ) (hv : StaggeredPeriodic c v) (hvb : ∀ a, (v' a).bc = (v a).bc) (hvm : ∀ a, (v a).array.Mirrored ax (mirrorSign ax a) (v' a).array) (dt : ℝ) :
    ∃ r r', advectVanLeerUsingLimiters c v dt = .ok r ∧ advectVanLeerUsingLimiters c' v' dt = .ok r' ∧ r.Mirrored ax σ r' := by
  obtain ⟨ho, hg, hs, m, hm, hdat⟩ := h
  have hv' : StaggeredPeriodic c' v' := fun a => ⟨⟨by rw [hvb a]; exact (hv a).1.1, by rw [(hvm a).2.2.1, (hvm a).2.1]; exact (hv a).1.2⟩, by rw [hvb a]; exact (hv a).2.1,
    by rw [(hvm a).2.2.1, hs]; exact (hv a).2.2.1, by rw [(hvm a).2.1, hg]; exact (hv a).2.2.2.1, by rw [(hvm a).1, ho]; exact (hv a).2.2.2.2⟩
  refine vanLeer_mirror hd hc hb hσ hv hv' ⟨ho, hg, hs⟩ hm hdat (fun a i hi => ?_) dt
  obtain ⟨k, hk, hkd⟩ := (hvm a).2.2.2
  have : k = m + if a = ax then 1 else 0 := by
    rw [(hv a).2.2.2.2] at hk
    by_cases e : a = ax
    · subst e
      rw [Function.update_self, mul_add, ← hm] at hk
      rw [if_pos rfl]
      have : (k : ℚ) = ((m + 1 : ℤ) : ℚ) := by rw [hk]; push_cast; norm_num
      exact_mod_cast this
    · rw [Function.update_of_ne fun h => e h.symm, ← hm] at hk
      rw [if_neg e, add_zero]
      exact_mod_cast hk
  subst this
  rw [(hv a).2.2.1] at hkd
  exact hkd i hi

omit [HasNan ℝ] in
theorem faceIndex_mid {u u' : Fin d → Idx d → ℝ} {s : Fin d → ℕ} (h : MirrorData s ax u u') (i a : Fin d) {x : Idx d} (hx : InR s x) :
    mid s i (u' a) x = mirrorSign ax a * mid s i (u a) (mirrorIdx s ax (faceIndex ax i + if a = ax then 1 else 0) x) := by
  rw [mid_mirror (fun j hj => h a j hj) i hx]
  congr 2
  unfold faceIndex
  congr 1
  split_ifs <;> rfl

/-- **C78** The convection schemes of the incompressible solver commute with reflections. -/
theorem C78_convection (hd : d ≠ 0) (g : Grid d ℝ) (hs : ∀ a, 0 < g.shape a) (ax : Fin d) (dt : ℝ) :
    TendencyCommutesMirror g ax (defaultConvect dt) ∧ TendencyCommutesMirror g ax convectLinear := by
  refine ⟨fun u u' hu h => ?_, fun u u' hu h => ?_⟩
  · have hu' := h.periodicField hu
    have hdat := h.data hu
    have stag : ∀ {v : Fin d → GridVariable d ℝ}, PeriodicField g v → ∀ i, (StaggeredPeriodic (v i) fun a => (⟨⟨⟨g.shape, lerp ℝ g.shape i (1 / 2) (v a).array.data⟩, upperFace (v a) i, g⟩, (v a).bc⟩ : GridVariable d ℝ)) ∧
        ∀ a, linear (v a) (upperFace (v i) a) = .ok (⟨⟨⟨g.shape, lerp ℝ g.shape i (1 / 2) (v a).array.data⟩, upperFace (v a) i, g⟩, (v a).bc⟩ : GridVariable d ℝ) := by
      intro v hv i
      have hper := hv.periodic hs
      have hface : ∀ i j, upperFace (v i) j = upperFace (v j) i := fun i j => by
        funext b
        unfold upperFace
        rcases eq_or_ne b j with rfl | hj <;> rcases eq_or_ne b i with rfl | hi
        · rfl
        · rw [Function.update_self, Function.update_of_ne hi, (hv.1 i).2.2, (hv.1 b).2.2, if_neg hi, if_pos rfl]; norm_num
        · rw [Function.update_self, Function.update_of_ne hj, (hv.1 b).2.2, (hv.1 j).2.2, if_neg hj, if_pos rfl]; norm_num
        · rw [Function.update_of_ne hj, Function.update_of_ne hi, (hv.1 i).2.2, (hv.1 j).2.2, if_neg hi, if_neg hj]
      refine ⟨fun a => ⟨(hper a).mk' (fun _ => rfl) (by exact ((hv.1 a).2.1).symm) (by exact ((hv.1 a).1).symm), by show (v a).bc.cls = _; rw [hv.2 a]; rfl, (hv.1 i).2.1.symm, (hv.1 i).1.symm,
        hface a i⟩, fun a => ?_⟩
      rw [hface i a]
      have := linear_one_axis (hper a) i ((v a).array.offset i + 1 / 2)
      rw [add_sub_cancel_left, (hv.1 a).1, (hv.1 a).2.1] at this
      exact this
    unfold defaultConvect
    refine RelE.seqFin (R := fun a (r s : GridArray d ℝ) => r.Mirrored ax (mirrorSign ax a) s) fun i => RelE.of_ok ?_
    rw [vanLeer_aligned (hu.periodic hs i) (stag hu i).1 (stag hu i).2, vanLeer_aligned (hu'.periodic hs i) (stag hu' i).1 (stag hu' i).2]
    refine vanLeer_mirror hd (hu.periodic hs i) (h i).1 (by unfold mirrorSign; split_ifs <;> simp) (stag hu i).1 (stag hu' i).1 ⟨(h i).2.1, (h i).2.2.1, (h i).2.2.2.1⟩ (faceIndex_offset hu i) ?_ ?_ dt
    · rw [(hu.1 i).2.1]
      exact fun x hx => hdat i x hx
    · rw [(hu.1 i).2.1]
      intro a x hx
      have e1 := lerp_mid (s := g.shape) i (u' a).array.data hx
      have e2 := lerp_mid (s := g.shape) i (u a).array.data (mirrorIdx_inR (ax := ax) hs (faceIndex ax i + if a = ax then 1 else 0) hx)
      show lerp ℝ g.shape i (1 / 2) (u' a).array.data x = _ * lerp ℝ g.shape i (1 / 2) (u a).array.data _
      rw [e1, e2]
      exact faceIndex_mid hdat i a hx
  · rw [convectLinear_closed hd hs hu, convectLinear_closed hd hs (h.periodicField hu)]
    have hdat := h.data hu
    refine RelE.ok fun i => ⟨(h i).2.1, rfl, rfl, faceIndex ax i, faceIndex_offset hu i, fun x hx => ?_⟩
    have hx : InR g.shape x := hx
    have hxM := mirrorIdx_inR (ax := ax) hs (faceIndex ax i) hx
    show -(∑ a : Fin d, _ : ℝ) = mirrorSign ax i * -(∑ a : Fin d, _ : ℝ)
    rw [mul_neg]
    congr 1
    have e1 := conv_lerp (h := g.step) (fieldData u') (fieldData u') i hx
    have e2 := conv_lerp (h := g.step) (fieldData u) (fieldData u) i hxM
    refine e1.trans (Eq.trans ?_ (congrArg _ e2.symm))
    unfold conv
    rw [Finset.mul_sum]
    refine Finset.sum_congr rfl fun a _ => ?_
    have := flux_mirror (s := g.shape) (ax := ax) (F := fun j => mid g.shape a (fieldData u i) j * mid g.shape i (fieldData u a) j)
      (F' := fun j => mid g.shape a (fieldData u' i) j * mid g.shape i (fieldData u' a) j) (σ := mirrorSign ax i) (m := faceIndex ax i) a (fun j hj => ?_) hx
    · rw [this]
      ring
    · rw [mid_mirror (fun j hj => hdat i j hj) a hj, faceIndex_mid hdat i a hj]
      by_cases ha : a = ax
      · simp only [if_pos ha]
        rw [show mirrorSign ax a = -1 by unfold mirrorSign; rw [if_pos ha]]
        ring
      · simp only [if_neg ha, add_zero]
        rw [show mirrorSign ax a = 1 by unfold mirrorSign; rw [if_neg ha]]
        ring

/-- **C78** With an exact pressure solver — however it computes the solution — the projection commutes with every reflection. -/
theorem C78_exact_projection (hd : d ≠ 0) (g : Grid d ℝ) (hs : ∀ a, 0 < g.shape a) (ax : Fin d) (solve : PressureSolver d ℝ) (hex : ExactSolver g solve) :
    CommutesWithMirror g ax fun u => projection u solve := by
  intro u u' hu h
  have hu' := h.periodicField hu
  obtain ⟨p, q, hp, -, hpp, hpe, hpd⟩ := projection_gradient hd hs hex hu
  obtain ⟨p', q', hp', -, hpp', hpe', hpd'⟩ := projection_gradient hd hs hex hu'
  refine RelE.of_ok ⟨p, p', hp, hp', FieldMirrored.of_data hpp hpp' ?_⟩
  -- the mirror image of the projected field is another projection of the mirrored field
  let P : Fin d → Idx d → ℝ := fun a i => mirrorSign ax a * fieldData p a (mirrorIdx g.shape ax (faceIndex ax a) i)
  let Q : Idx d → ℝ := fun i => q (mirrorIdx g.shape ax 1 i)
  have hP : MirrorData g.shape ax (fieldData p) P := fun a i _ => rfl
  have hQ := dGrad_mirror (s := g.shape) (h := g.step) (ax := ax) (q := q) (q' := Q) fun i _ => rfl
  have hPe : ∀ a i, InR g.shape i → P a i = fieldData u' a i - dGrad g.shape g.step Q a i := fun a i hi => by
    rw [h.data hu a i hi, hQ a i hi, ← mul_sub, ← hpe a _ (mirrorIdx_inR hs _ hi)]
  have hPd : ∀ i, InR g.shape i → dDiv g.shape g.step P i = 0 := fun i hi => by
    rw [dDiv_mirror hP hi]
    exact hpd _ (mirrorIdx_inR hs _ hi)
  have hz := projection_contracts (s := g.shape) (h := g.step) (u := fun _ _ => 0) (p := fun a i => fieldData p' a i - P a i) (q := fun i => q' i - Q i)
    (fun a i hi => by rw [hpe' a i hi, hPe a i hi, dGrad_sub]; ring) (fun i hi => by rw [dDiv_sub, hpd' i hi, hPd i hi, sub_zero])
  have h0 : n2 g.shape (fun (_ : Fin d) (_ : Idx d) => (0 : ℝ)) ^ 2 = 0 := by rw [n2_sq']; simp
  have h1 : n2 g.shape (fun a i => fieldData p' a i - P a i) ^ 2 = 0 := by
    have h2 := n2_nonneg (s := g.shape) fun a i => fieldData p' a i - P a i
    have h3 := n2_nonneg (s := g.shape) fun (_ : Fin d) (_ : Idx d) => (0 : ℝ)
    rw [pow_eq_zero_iff two_ne_zero] at h0 ⊢
    linarith
  rw [n2_sq'] at h1
  intro a i hi
  have h2 := (Finset.sum_eq_zero_iff_of_nonneg (fun a _ => Finset.sum_nonneg fun i _ => sq_nonneg _)).1 h1 a (Finset.mem_univ _)
  have h3 := (Finset.sum_eq_zero_iff_of_nonneg (fun i _ => sq_nonneg _)).1 h2 i (mem_box.2 hi)
  have h4 : fieldData p' a i - P a i = 0 := by simpa using h3
  exact sub_eq_zero.1 h4

end
end JaxCfd
