import Verif.Props.Units
import Verif.Props.PermutationAdvection

/-!
# C77: no hidden units — advection

`l` is the factor of lengths, `τ` that of times and `m` that of the transported quantity; velocities have the factor `l / τ`.
-/

namespace JaxCfd
variable {d : ℕ} {l m τ : ℝ}

/-- Measuring the field, the velocity and the time step in other units only changes the unit of the interpolated field. -/
def NoHiddenUnits [HasNan ℝ] (fn : InterpFn d ℝ) : Prop :=
  ∀ (l m τ : ℝ), 0 < l → 0 < τ → m ≠ 0 → ∀ (c c' : GridVariable d ℝ) (o : Fin d → ℚ) (v v' : Fin d → GridVariable d ℝ) (dt : ℝ), c.InUnits l m c' → c.Periodic →
    (∀ a, (v a).InUnits l (l / τ) (v' a)) → RelS (GridVariable.InUnits l m) (fn c o v dt) (fn c' o v' (τ * dt))

theorem jnpWhere_rel {R : Idx d → ℝ → ℝ → Prop} {p p' : NArr d Bool} {x x' y y' : NArr d ℝ} (hp : p'.shape = p.shape ∧ ∀ i : Idx d, InR p.shape i → p'.data i = p.data i)
    (hxs : x'.shape = x.shape) (hys : y'.shape = y.shape) (hx : p.shape = x.shape → x.shape = y.shape → ∀ i : Idx d, InR x.shape i → R i (x.data i) (x'.data i))
    (hy : p.shape = x.shape → x.shape = y.shape → ∀ i : Idx d, InR x.shape i → R i (y.data i) (y'.data i)) :
    RelS (fun a b => b.shape = a.shape ∧ a.shape = x.shape ∧ ∀ i : Idx d, InR a.shape i → R i (a.data i) (b.data i)) (jnpWhere p x y) (jnpWhere p' x' y') := by
  unfold jnpWhere
  by_cases hs : p.shape = x.shape ∧ x.shape = y.shape
  · rw [if_pos hs, if_pos ⟨by rw [hp.1, hxs, hs.1], by rw [hxs, hys, hs.2]⟩]
    refine RelS.ok ⟨hxs, rfl, fun i hi => ?_⟩
    replace hi : InR x.shape i := hi
    show R i (if p.data i = true then x.data i else y.data i) (if p'.data i = true then x'.data i else y'.data i)
    rw [hp.2 i (by rw [hs.1]; exact hi)]
    split_ifs
    · exact hx hs.1 hs.2 i hi
    · exact hy hs.1 hs.2 i hi
  · rw [if_neg hs]
    exact RelS.error _ _

theorem isPositive_inUnits {x y : NArr d ℝ} (hm : 0 < m) (h : x.Scaled m y) : (isPositive y).shape = (isPositive x).shape ∧ ∀ i : Idx d, InR (isPositive x).shape i → (isPositive y).data i = (isPositive x).data i :=
  ⟨h.1, fun i hi => by
    show decide (0 < y.data i) = decide (0 < x.data i)
    rw [h.2 i hi, decide_eq_decide]
    exact mul_pos_iff_of_pos_left hm⟩

theorem periodicBC_given (d : ℕ) : (periodicBC d : BC d ℝ).Given := fun _ => ⟨fun h => absurd rfl h, fun h => absurd rfl h⟩

theorem periodicBC_inUnits (d : ℕ) : (periodicBC d : BC d ℝ).inUnits l m = periodicBC d := by
  unfold periodicBC homogeneousBC BC.inUnits sideInUnits
  simp

section
variable [HasNan ℝ]

theorem upwindAlong_inUnits (hl : 0 < l) (hτ : 0 < τ) {c c' u v : GridVariable d ℝ} (hc : c.InUnits l m c') (h : u.InUnits l (l / τ) v) (o : Fin d → ℚ) (a : Fin d) :
    RelS (GridVariable.InUnits l m) (upwindAlong c o u a) (upwindAlong c' o v a) := by
  unfold upwindAlong
  dsimp only
  rw [hc.2.2.offset, h.2.2.offset]
  split_ifs
  · refine RelS.bind (C77_shift hl.ne' hc _ _ _) fun _ _ h1 => RelS.bind (consistentGrid_inUnits (.cons hc.2.2.grid (.cons h.2.2.grid .nil))) fun g g' hg => ?_
    rw [hg.1, hc.1]
    exact RelS.ok ⟨rfl, hc.2.1, rfl, rfl, h1.2.2⟩
  · refine RelS.bind' (C77_shift hl.ne' hc _ _ _) fun x x' _ h1 => RelS.bind (C77_shift hl.ne' hc _ _ _) fun y y' h2 =>
      RelS.bind (jnpWhere_rel (R := fun _ s t => t = m * s) (isPositive_inUnits (div_pos hl hτ) h.2.2.2.2) h1.shape h2.shape (fun _ _ i hi => h1.data hi)
        fun _ e i hi => h2.data (by rw [← show x.shape = y.shape from e]; exact hi)) fun z z' hz => RelS.bind (consistentGrid_inUnits (.cons hc.2.2.grid (.cons h.2.2.grid .nil))) fun g g' hg => ?_
    rw [hg.1]
    exact RelS.ok ⟨(periodicBC_inUnits d).symm, periodicBC_given d, rfl, rfl, hz.1, hz.2.2⟩

theorem laxWendroffAlong_inUnits (hl : 0 < l) (hτ : 0 < τ) {c c' u v : GridVariable d ℝ} (hc : c.InUnits l m c') (hp : c.Periodic) (h : u.InUnits l (l / τ) v) (o : Fin d → ℚ) (dt : ℝ) (a : Fin d) :
    RelS (GridVariable.InUnits l m) (laxWendroffAlong c o u dt a) (laxWendroffAlong c' o v (τ * dt) a) := by
  unfold laxWendroffAlong
  dsimp only
  rw [hc.2.2.offset, h.2.2.offset]
  have hfit : ShiftsFit c (List.finRange d) := Or.inl hp
  refine RelS.bind (consistentGrid_inUnits (.cons hc.2.2.grid (.cons h.2.2.grid .nil))) fun g g' hg => RelS.bind' (C77_shift hl.ne' hc _ _ _) fun f f' hf h1 =>
    RelS.bind' (C77_shift hl.ne' hc _ _ _) fun e e' he h2 => ?_
  obtain ⟨rfl, -⟩ := hg
  have sf := hfit.shape (List.mem_finRange a) hf
  have se := hfit.shape (List.mem_finRange a) he
  have hq : ∀ x, τ * dt / (g.inUnits l).step a * (l / τ * x) = dt / g.step a * x := fun x => by
    rw [Grid.inUnits_step]
    have h1 : τ ≠ 0 := hτ.ne'
    have h2 : l ≠ 0 := hl.ne'
    rw [mul_div_mul_comm, show τ / l * (dt / g.step a) * (l / τ * x) = (τ / l * (l / τ)) * (dt / g.step a * x) by ring, show τ / l * (l / τ) = 1 by field_simp, one_mul]
  refine RelS.bind (jnpWhere_rel (R := fun _ s t => t = m * s) (isPositive_inUnits (div_pos hl hτ) h.2.2.2.2) h1.shape h2.shape (fun eu _ i hi => ?_) fun eu _ i hi => ?_) fun z z' hz =>
    RelS.ok ⟨(periodicBC_inUnits d).symm, periodicBC_given d, rfl, rfl, hz.1, hz.2.2⟩
  · replace hi : InR f.shape i := hi
    replace eu : u.array.shape = f.shape := eu
    show f'.data i + 1 / 2 * (1 - τ * dt / (g.inUnits l).step a * v.array.data i) * (e'.data i - f'.data i) = m * (f.data i + 1 / 2 * (1 - dt / g.step a * u.array.data i) * (e.data i - f.data i))
    rw [h1.data hi, h2.data (by rw [se, ← sf]; exact hi), h.2.2.data (by rw [eu]; exact hi), hq]
    ring
  · replace hi : InR f.shape i := hi
    replace eu : u.array.shape = f.shape := eu
    show e'.data i - 1 / 2 * (1 + τ * dt / (g.inUnits l).step a * v.array.data i) * (e'.data i - f'.data i) = m * (e.data i - 1 / 2 * (1 + dt / g.step a * u.array.data i) * (e.data i - f.data i))
    rw [h1.data hi, h2.data (by rw [se, ← sf]; exact hi), h.2.2.data (by rw [eu]; exact hi), hq]
    ring

/-- **C77** Linear, upwind and Lax-Wendroff interpolation know no units. -/
theorem C77_interpolation : NoHiddenUnits (d := d) linearFn ∧ NoHiddenUnits (d := d) upwindFn ∧ NoHiddenUnits (d := d) laxWendroff := by
  refine ⟨fun l m τ hl hτ hm c c' o v v' dt hc hp hv => C77_linear hl.ne' hc (Or.inl hp) o, fun l m τ hl hτ hm c c' o v v' dt hc hp hv => ?_, fun l m τ hl hτ hm c c' o v v' dt hc hp hv => ?_⟩
  · unfold upwindFn upwind
    rw [hc.2.2.offset]
    by_cases h : c.array.offset = o
    · rw [if_pos h, if_pos h]
      exact RelS.ok hc
    · rw [if_neg h, if_neg h]
      split
      · exact upwindAlong_inUnits hl hτ hc (hv _) o _
      · exact RelS.error _ _
  · unfold laxWendroff
    rw [hc.2.2.offset]
    by_cases h : c.array.offset = o
    · rw [if_pos h, if_pos h]
      exact RelS.ok hc
    · rw [if_neg h, if_neg h]
      split
      · exact laxWendroffAlong_inUnits hl hτ hc hp (hv _) o dt _
      · exact RelS.error _ _

/-! ## The limiter -/

omit [HasNan ℝ] in
theorem jnpWhere_shape {p : NArr d Bool} {x y r : NArr d ℝ} (h : jnpWhere p x y = .ok r) : p.shape = x.shape := by
  unfold jnpWhere at h
  split_ifs at h with hs
  exact hs.1

/-- What a limited interpolation requires of the velocity. -/
theorem tvdAxisBody_velocity {fn : InterpFn d ℝ} {limiter : ℝ → ℝ} {o : Fin d → ℚ} {v : Fin d → GridVariable d ℝ} {dt : ℝ} {c r : GridVariable d ℝ} {ax : Fin d} (hne : c.array.offset ≠ o)
    (h : tvdAxisBody fn limiter o v dt c ax = .ok r) : (v ax).array.offset = o ∧ (v ax).array.grid = c.array.grid ∧ (v ax).array.shape = c.array.shape := by
  unfold tvdAxisBody at h
  obtain ⟨low, hlow, h⟩ := Except.bind_eq_ok.1 h
  obtain ⟨_, -, h⟩ := Except.bind_eq_ok.1 h
  obtain ⟨_, -, h⟩ := Except.bind_eq_ok.1 h
  obtain ⟨_, -, h⟩ := Except.bind_eq_ok.1 h
  obtain ⟨_, -, h⟩ := Except.bind_eq_ok.1 h
  obtain ⟨phi, hphi, h⟩ := Except.bind_eq_ok.1 h
  obtain ⟨oo, ho, h⟩ := Except.bind_eq_ok.1 h
  obtain ⟨g, hg, h⟩ := Except.bind_eq_ok.1 h
  obtain ⟨-, ho⟩ := uniqueOr_eq_ok.1 ho
  obtain ⟨-, hg⟩ := uniqueOr_eq_ok.1 hg
  have e1 := ho (v ax).array.offset (by simp)
  have e2 := ho low.array.offset (by simp)
  have e3 := hg (v ax).array.grid (by simp)
  have e4 := hg c.array.grid (by simp)
  have hlo : low.array.offset = o := by
    unfold upwind at hlow
    rw [if_neg hne] at hlow
    split at hlow
    · unfold upwindAlong at hlow
      dsimp only at hlow
      split_ifs at hlow
      · obtain ⟨_, -, hlow⟩ := Except.bind_eq_ok.1 hlow
        obtain ⟨_, -, hlow⟩ := Except.bind_eq_ok.1 hlow
        rw [← Except.ok.inj hlow]
      · obtain ⟨_, -, hlow⟩ := Except.bind_eq_ok.1 hlow
        obtain ⟨_, -, hlow⟩ := Except.bind_eq_ok.1 hlow
        obtain ⟨_, -, hlow⟩ := Except.bind_eq_ok.1 hlow
        obtain ⟨_, -, hlow⟩ := Except.bind_eq_ok.1 hlow
        rw [← Except.ok.inj hlow]
    · cases hlow
  exact ⟨e1.trans (e2.symm.trans hlo), e3.trans e4.symm, jnpWhere_shape hphi⟩

omit [HasNan ℝ] in
theorem GridVariable.InUnits.periodic {c c' : GridVariable d ℝ} (h : c.InUnits l m c') (hp : c.Periodic) : c'.Periodic := by
  refine ⟨fun a => ?_, fun a => ?_⟩
  · rw [h.1]; exact hp.1 a
  · rw [h.2.2.gridShape, h.2.2.shape]; exact hp.2 a

/-- **C77** Lax-Wendroff interpolation with a flux limiter, whatever the limiter.  Where two neighbouring values agree the code feeds the limiter a number that does have a unit
(`safe_div` replaces the denominator by 1); there the two schemes agree, so it has no effect. -/
theorem C77_limited (limiter : ℝ → ℝ) : NoHiddenUnits (d := d) (tvdInterpolation laxWendroff limiter) := by
  intro l m τ hl hτ hm c c' o v v' dt hc hp hv r hr
  have hp' := GridVariable.InUnits.periodic hc hp
  rcases tvd_eq_ok.1 hr with ⟨h, rfl⟩ | ⟨ax, hax, hh, h⟩
  · exact ⟨c', tvd_eq_ok.2 (Or.inl ⟨by rw [hc.2.2.offset, h], rfl⟩), hc⟩
  have hne : c.array.offset ≠ o := fun e => (hax ax).2 rfl (by rw [e])
  obtain ⟨f1, f2, f3⟩ := tvdAxisBody_velocity hne h
  have ho : o = Function.update c.array.offset ax (c.array.offset ax + 1 / 2) := by
    funext b
    by_cases hb : b = ax
    · subst hb
      rw [Function.update_self]
      linarith
    · rw [Function.update_of_ne hb]
      by_contra hn
      exact hb ((hax b).1 fun e => hn e.symm)
  have g1 : (v' ax).array.shape = c'.array.shape := by rw [(hv ax).2.2.shape, hc.2.2.shape, f3]
  have g2 : (v' ax).array.grid = c'.array.grid := by rw [(hv ax).2.2.grid, hc.2.2.grid, f2]
  have ho' : o = Function.update c'.array.offset ax (c'.array.offset ax + 1 / 2) := by rw [hc.2.2.offset]; exact ho
  have g3 : (v' ax).array.offset = Function.update c'.array.offset ax (c'.array.offset ax + 1 / 2) := by rw [(hv ax).2.2.offset, f1, ho']
  have f3' : (v ax).array.offset = Function.update c.array.offset ax (c.array.offset ax + 1 / 2) := by rw [f1, ho]
  have hl1 := laxWendroff_half hp ax v dt f3 f2 (by rw [f3', Function.update_self])
  have hl2 := laxWendroff_half hp' ax v' (τ * dt) g1 g2 (by rw [g3, Function.update_self])
  have ht1 := tvd_half hp ax v dt laxWendroff limiter _ f3 f2 f3' hl1 rfl f3'.symm rfl
  have ht2 := tvd_half hp' ax v' (τ * dt) laxWendroff limiter _ g1 g2 g3 hl2 rfl g3.symm rfl
  rw [← ho] at ht1
  rw [← ho'] at ht2
  rw [ht1] at hr
  rw [← Except.ok.inj hr]
  refine ⟨_, ht2, hc.1, hc.2.1, rfl, hc.2.2.grid, hc.2.2.shape, fun i hi => ?_⟩
  replace hi : InR c.array.shape i := hi
  dsimp only
  have hs : c'.array.shape = c.array.shape := hc.2.2.shape
  have hq : τ * dt / c'.array.grid.step ax * (v' ax).array.data i = dt / c.array.grid.step ax * (v ax).array.data i := by
    rw [hc.2.2.step, (hv ax).2.2.data (by rw [f3]; exact hi)]
    have h1 : τ ≠ 0 := hτ.ne'
    have h2 : l ≠ 0 := hl.ne'
    rw [mul_div_mul_comm, show τ / l * (dt / c.array.grid.step ax) * (l / τ * (v ax).array.data i) = (τ / l * (l / τ)) * (dt / c.array.grid.step ax * (v ax).array.data i) by ring,
      show τ / l * (l / τ) = 1 by field_simp, one_mul]
  have hpos : 0 < (v' ax).array.data i ↔ 0 < (v ax).array.data i := by
    rw [(hv ax).2.2.data (by rw [f3]; exact hi)]
    exact mul_pos_iff_of_pos_left (div_pos hl hτ)
  rw [hq, hs]
  simp only [hpos]
  rw [hc.2.2.data hi, hc.2.2.data (rollIdx_inR hi _ _), hc.2.2.data (rollIdx_inR hi _ _), hc.2.2.data (rollIdx_inR hi _ _), hc.2.2.data (rollIdx_inR hi _ _), rollIdx_zero hi]
  generalize c.array.data (rollIdx c.array.shape ax (-1) i) = p
  generalize c.array.data (rollIdx c.array.shape ax 1 i) = q
  generalize c.array.data (rollIdx c.array.shape ax 2 i) = s
  generalize c.array.data i = x
  generalize dt / c.array.grid.step ax * (v ax).array.data i = w
  by_cases hst : q - x = 0
  · have : q = x := by linarith
    subst this
    simp
  · have sd : ∀ z, safeDiv (m * z) (m * (q - x)) = safeDiv z (q - x) := fun z => by
      unfold safeDiv
      rw [if_pos (mul_ne_zero hm hst), if_pos hst, mul_div_mul_left _ _ hm]
    simp only [← mul_sub, sd]
    split_ifs <;> ring

/-! ## Advection -/

omit [HasNan ℝ] in
theorem constantZero_inUnits {b : BC d ℝ} (h : ∀ a, ((b.bcValues a).1 = none ∨ (b.bcValues a).1 = some 0) ∧ ((b.bcValues a).2 = none ∨ (b.bcValues a).2 = some 0)) (l m : ℝ) : b.inUnits l m = b := by
  have hs : ∀ t (x : Option ℝ), (x = none ∨ x = some 0) → sideInUnits l m t x = x := fun t x hx => by
    rcases hx with rfl | rfl
    · rfl
    · simp [sideInUnits]
  unfold BC.inUnits
  have : (fun a => (sideInUnits l m (b.types a).1 (b.bcValues a).1, sideInUnits l m (b.types a).2 (b.bcValues a).2)) = b.bcValues := funext fun a => by
    rw [hs _ _ (h a).1, hs _ _ (h a).2]
  rw [this]

omit [HasNan ℝ] in
theorem fluxSide_inUnits {m' : ℝ} (ut : BCType) (uv : Option ℝ) (ct : BCType) (cv : Option ℝ) :
    RelS (fun r s => s = r ∧ r.2 = some 0) (fluxSide ut uv ct cv) (fluxSide ut (sideInUnits l m ut uv) ct (sideInUnits l m' ct cv)) := by
  unfold fluxSide
  by_cases h1 : ut = .dirichlet ∧ uv = some 0
  · rw [if_pos h1, if_pos ⟨h1.1, by rw [h1.2]; simp [sideInUnits]⟩]
    exact RelS.ok ⟨rfl, rfl⟩
  rw [if_neg h1]
  by_cases h2 : ut = .neumann ∧ ct = .neumann
  · rw [if_pos h2, if_neg (by rw [h2.1]; rintro ⟨e, -⟩; cases e), if_pos h2]
    cases cv with
    | none => exact RelS.error _ _
    | some x =>
      dsimp only
      by_cases hx : x = 0
      · subst hx
        simp only [sideInUnits, Option.map_some, mul_zero, if_true]
        exact RelS.ok ⟨rfl, rfl⟩
      · rw [if_neg hx]
        exact RelS.error _ _
  · rw [if_neg h2]
    exact RelS.error _ _

omit [HasNan ℝ] in
/-- The boundary conditions of a flux do not depend on the units. -/
theorem advectionFluxBC_inUnits {m' : ℝ} {u u' c c' : GridVariable d ℝ} (hu : u.InUnits l m u') (hc : c.InUnits l m' c') (a : Fin d) :
    RelS (fun b b' => b.Given ∧ ∀ n : ℝ, b' = b.inUnits l n) (advectionFluxBC u c a) (advectionFluxBC u' c' a) := by
  unfold advectionFluxBC
  rw [hu.1]
  by_cases h : u.bc.cls ≠ .homogeneous
  · rw [if_pos h]
    exact RelS.error _ _
  have h' : ¬ (u.bc.inUnits l m).cls ≠ .homogeneous := h
  rw [if_neg h, if_neg h']
  refine RelS.bind (RelS.seq (R := fun _ r s => s = r ∧ (r.1.1 ≠ .periodic → r.2.1 ≠ none) ∧ (r.1.2 ≠ .periodic → r.2.2 ≠ none) ∧ (r.2.1 = none ∨ r.2.1 = some 0) ∧ (r.2.2 = none ∨ r.2.2 = some 0)) fun b => ?_)
    fun r s hrs => RelS.ok ⟨fun a => ⟨(hrs a).2.1, (hrs a).2.2.1⟩, fun n => ?_⟩
  · unfold fluxAxis
    rw [hu.1, hc.1]
    have e : (u.bc.inUnits l m).types = u.bc.types := rfl
    have e' : (c.bc.inUnits l m').types = c.bc.types := rfl
    rw [e, e']
    split_ifs
    · exact RelS.ok ⟨rfl, fun h => absurd rfl h, fun h => absurd rfl h, Or.inl rfl, Or.inl rfl⟩
    · exact RelS.ok ⟨rfl, fun _ => by simp, fun _ => by simp, Or.inr rfl, Or.inr rfl⟩
    · exact RelS.bind (fluxSide_inUnits _ _ _ _) fun x x' hx => RelS.bind (fluxSide_inUnits _ _ _ _) fun y y' hy => by
        rw [hx.1, hy.1]
        exact RelS.ok ⟨rfl, fun _ => by simp [hx.2], fun _ => by simp [hy.2], Or.inr hx.2, Or.inr hy.2⟩
  · have hs : s = r := funext fun a => (hrs a).1
    rw [hs]
    exact (constantZero_inUnits (fun a => (hrs a).2.2.2) l n).symm

theorem advectAlignedAxes_inUnits (hl : 0 < l) {cs v cs' v' : Fin d → GridVariable d ℝ} (hc : ∀ a, (cs a).InUnits l m (cs' a)) (hv : ∀ a, (v a).InUnits l (l / τ) (v' a)) :
    RelS (GridArray.InUnits l (m / τ)) (advectAlignedAxes cs v) (advectAlignedAxes cs' v') := by
  unfold advectAlignedAxes
  have hl' : l ≠ 0 := hl.ne'
  have e : m * (l / τ) / l = m / τ := by field_simp
  refine RelS.bind (RelS.seq (R := fun _ => GridArray.InUnits l (m * (l / τ))) fun a => (hc a).2.2.gmap2 (hv a).2.2 fun x y => by ring) fun fl fl' hfl =>
    RelS.bind (RelS.seq fun a => advectionFluxBC_inUnits (hv a) (hc a) a) fun b b' hb =>
    RelS.bind (RelS.seq (R := fun _ => GridVariable.InUnits l (m * (l / τ))) fun a => ?_) fun x y hxy => RelS.bind (C77_divergence hl' hxy).1 fun r s hrs => RelS.ok ?_
  · rw [(hb a).2 (m * (l / τ))]
    exact C77_impose_bc hl' _ (hb a).1 (hfl a)
  · rw [e] at hrs
    exact hrs.neg

omit [HasNan ℝ] in
theorem controlVolume_inUnits {c c' : GridArray d ℝ} (h : c.InUnits l m c') (a : Fin d) : controlVolumeOffsets c' a = controlVolumeOffsets c a := by
  unfold controlVolumeOffsets
  rw [h.offset]

/-- **C77** `advect_general` with interpolation functions that know no units: the tendency is in the unit of the scalar divided by that of time. -/
theorem C77_advect_general (uFn cFn : InterpFn d ℝ) (huF : NoHiddenUnits uFn) (hcF : NoHiddenUnits cFn) (hl : 0 < l) (hτ : 0 < τ) (hm : m ≠ 0) {c c' : GridVariable d ℝ} {v v' : Fin d → GridVariable d ℝ}
    (hc : c.InUnits l m c') (hp : c.Periodic) (hv : ∀ a, (v a).InUnits l (l / τ) (v' a)) (hvp : ∀ a, (v a).Periodic) (dt : ℝ) :
    RelS (GridArray.InUnits l (m / τ)) (advectGeneral uFn cFn c v dt) (advectGeneral uFn cFn c' v' (τ * dt)) := by
  unfold advectGeneral
  rw [if_pos (hasAllPeriodic_of hp.1), if_pos (hasAllPeriodic_of (GridVariable.InUnits.periodic hc hp).1)]
  refine RelS.bind (RelS.seq (R := fun _ => GridVariable.InUnits l (l / τ)) fun a => ?_) fun av av' hav => RelS.bind (RelS.seq (R := fun _ => GridVariable.InUnits l m) fun a => ?_) fun ac ac' hac => ?_
  · rw [controlVolume_inUnits hc.2.2]
    exact huF l (l / τ) τ hl hτ (div_pos hl hτ).ne' _ _ _ _ _ dt (hv a) (hvp a) hv
  · rw [controlVolume_inUnits hc.2.2]
    exact hcF l m τ hl hτ hm _ _ _ _ _ dt hc hp hav
  · rw [advectAligned_ofFn, advectAligned_ofFn]
    exact advectAlignedAxes_inUnits hl hac hav

/-- **C77** The advection schemes: linear, upwind and van Leer with limiters. -/
theorem C77_advection (hl : 0 < l) (hτ : 0 < τ) (hm : m ≠ 0) {c c' : GridVariable d ℝ} {v v' : Fin d → GridVariable d ℝ} (hc : c.InUnits l m c') (hp : c.Periodic)
    (hv : ∀ a, (v a).InUnits l (l / τ) (v' a)) (hvp : ∀ a, (v a).Periodic) (dt : ℝ) :
    RelS (GridArray.InUnits l (m / τ)) (advectLinear c v dt) (advectLinear c' v' (τ * dt)) ∧ RelS (GridArray.InUnits l (m / τ)) (advectUpwind c v dt) (advectUpwind c' v' (τ * dt)) ∧
      RelS (GridArray.InUnits l (m / τ)) (advectVanLeerUsingLimiters c v dt) (advectVanLeerUsingLimiters c' v' (τ * dt)) :=
  ⟨C77_advect_general _ _ C77_interpolation.1 C77_interpolation.1 hl hτ hm hc hp hv hvp dt, C77_advect_general _ _ C77_interpolation.1 C77_interpolation.2.1 hl hτ hm hc hp hv hvp dt,
    C77_advect_general _ _ C77_interpolation.1 (C77_limited _) hl hτ hm hc hp hv hvp dt⟩

/-! ## Linear convection -/

/-- **C77** `convect_linear`, whatever the boundary conditions: the tendency of the velocity is in the unit of an acceleration. -/
theorem C77_convect_linear (hl : 0 < l) {v v' : Fin d → GridVariable d ℝ} (hv : ∀ a, (v a).InUnits l (l / τ) (v' a)) (hf : ∀ a, (v a).Periodic ∨ (v a).array.Fits) :
    RelS (fun r s => ∀ a, (r a).InUnits l (l / τ ^ 2) (s a)) (convectLinear v) (convectLinear v') := by
  unfold convectLinear
  have hl' : l ≠ 0 := hl.ne'
  refine RelS.bind (R := fun r s => ∀ i j, GridVariable.InUnits l (l / τ) (r i j) (s i j)) ?_ fun av av' hav =>
    RelS.bind (R := fun (r s : Fin d → Fin d → GridVariable d ℝ) => ∀ i j : Fin d, GridVariable.InUnits l (l / τ * (l / τ)) (r i j) (s i j)) ?_ fun fl fl' hfl =>
    RelS.seq fun i => RelS.bind (C77_divergence hl' (hfl i)).1 fun r s hrs => RelS.ok ?_
  · unfold alignVelocities
    exact RelS.bind (consistentGrid_ofFn_inUnits fun a => (hv a).2.2.grid) fun _ _ _ => RelS.seq (R := fun _ (r s : Fin d → GridVariable d ℝ) => ∀ j, GridVariable.InUnits l (l / τ) (r j) (s j)) fun i =>
      RelS.seq (R := fun _ => GridVariable.InUnits l (l / τ)) fun j => by
      rw [controlVolume_inUnits (hv i).2.2]
      exact C77_linear hl' (hv i) (hf i) _
  · have hent : ∀ i j, RelS (GridVariable.InUnits l (l / τ * (l / τ))) (fluxEntry av i j) (fluxEntry av' i j) := fun i j => by
      unfold fluxEntry
      refine RelS.bind (advectionFluxBC_inUnits (hav j i) (hav i j) j) fun b b' hb => RelS.bind ((hav i j).2.2.gmap2 (n := l / τ * (l / τ)) (hav j i).2.2 fun x y => by ring) fun x y hxy => ?_
      rw [hb.2 (l / τ * (l / τ))]
      exact C77_impose_bc hl' _ hb.1 hxy
    unfold velocitiesToFlux
    refine RelS.seq (R := fun _ (r s : Fin d → GridVariable d ℝ) => ∀ j, GridVariable.InUnits l (l / τ * (l / τ)) (r j) (s j)) fun i => RelS.seq (R := fun _ => GridVariable.InUnits l (l / τ * (l / τ))) fun j => ?_
    split_ifs
    · exact hent i j
    · exact hent j i
  · rw [show l / τ * (l / τ) / l = l / τ ^ 2 by rw [sq, ← div_div]; field_simp] at hrs
    exact hrs.neg

end
end JaxCfd
