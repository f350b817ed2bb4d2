import Verif.Lemmas.Advection
import Verif.Props.Interp

/-!
# Property theorems: advection (C27-C30)

`StaggeredPeriodic c v` (Spec.lean): `v` is a periodic velocity on the faces of the control volumes of `c`.
-/

set_option linter.unusedSectionVars false

namespace JaxCfd

variable {d : ℕ} {K : Type}

section
variable [Field K] [HasNan K] [DecidableEq K]

/-! ## C27: conservation -/

/-- An interpolation function that returns periodic variables on the grid of its periodic argument. -/
def KeepsPeriodic (fn : InterpFn d K) : Prop :=
  ∀ (c : GridVariable d K) (o : Fin d → ℚ) (v : Fin d → GridVariable d K) (dt : K) (r : GridVariable d K),
    c.Periodic → fn c o v dt = .ok r → r.Periodic

/-- **C27** Whatever the interpolation functions (linear, upwind, limited, or any other that returns periodic variables), the
tendency `advect_general` computes sums to exactly zero over the periodic grid. -/
theorem C27_conservation (uFn cFn : InterpFn d K) (hu : KeepsPeriodic uFn) (hcf : KeepsPeriodic cFn)
    (c : GridVariable d K) (v : Fin d → GridVariable d K) (dt : K) (hc : c.Periodic) (hv : ∀ a, (v a).Periodic)
    (r : GridArray d K) (h : advectGeneral uFn cFn c v dt = .ok r) : r.toNArr.sum = 0 := by
  unfold advectGeneral at h
  rw [if_pos (hasAllPeriodic_of hc.1)] at h
  obtain ⟨av, hav, h⟩ := Except.bind_eq_ok.1 h
  obtain ⟨ac, hac, h⟩ := Except.bind_eq_ok.1 h
  rw [seqFin_eq_ok] at hav hac
  rw [advectAligned_ofFn] at h
  obtain ⟨-, -, -, hr⟩ := (advectAlignedAxes_periodic (fun a => hcf _ _ _ _ _ hc (hac a))
    (fun a => hu _ _ _ _ _ (hv a) (hav a))).1 h
  unfold NArr.sum
  rw [hr, Finset.sum_neg_distrib, Finset.sum_comm, neg_eq_zero]
  refine Finset.sum_eq_zero fun a _ => ?_
  rw [← Finset.sum_div, Finset.sum_sub_distrib,
    sum_roll r.shape a (-1) (fun i => (ac a).array.data i * (av a).array.data i), sub_self, zero_div]

/-- **C27** `interpolation.linear` returns periodic variables. -/
theorem C27_linear_keeps_periodic : KeepsPeriodic (linearFn (d := d) (K := K)) := by
  intro c o v dt r hc h
  obtain ⟨f, hf, -⟩ := linear_periodic (fun _ _ => True) (fun _ _ _ _ _ => trivial) hc o trivial
  unfold linearFn at h
  rw [hf] at h
  injection h with h; subst h
  exact hc.mk' (fun _ => rfl) rfl rfl

/-- **C27** `convect_linear` on a periodic staggered velocity succeeds and each component is exactly `advect_linear` of that
component (the docstring's promise); hence every component of the convective tendency sums to zero. -/
theorem C27_convect_linear (hd : d ≠ 0) (v : Fin d → GridVariable d K) (g : Grid d K) (hv : ∀ a, (v a).Periodic)
    (hcls : ∀ a, (v a).bc.cls = .homogeneous) (hg : ∀ a, (v a).array.grid = g)
    (hs : ∀ i j, upperFace (v i) j = upperFace (v j) i) (dt : K) :
    ∃ R, convectLinear v = .ok R ∧
      ∀ i, advectLinear (v i) v dt = .ok (R i) ∧ (R i).offset = (v i).array.offset ∧ (R i).grid = g ∧
        (R i).toNArr.sum = 0 := by
  have hsh : ∀ a, (v a).array.shape = g.shape := fun a => by
    rw [← hg a]; funext b; exact ((hv a).2 b).1
  -- the aligned velocities
  have hL : ∀ i j, ∃ f, linear (v i) (upperFace (v i) j) =
      .ok ⟨⟨⟨(v i).array.shape, f⟩, upperFace (v i) j, (v i).array.grid⟩, (v i).bc⟩ := by
    intro i j
    obtain ⟨f, hf, -⟩ := linear_periodic (fun _ _ => True) (fun _ _ _ _ _ => trivial) (hv i) (upperFace (v i) j) trivial
    exact ⟨f, hf⟩
  choose f hf using hL
  set L : Fin d → Fin d → GridVariable d K := fun i j =>
    ⟨⟨⟨(v i).array.shape, f i j⟩, upperFace (v i) j, (v i).array.grid⟩, (v i).bc⟩ with hLdef
  have hLper : ∀ i j, (L i j).Periodic := fun i j => (hv i).mk' (fun _ => rfl) rfl rfl
  have hal : alignVelocities v = .ok L := by
    unfold alignVelocities
    rw [show consistentGrid (List.ofFn fun a => (v a).array) = .ok g from uniqueOr_eq_ok.2
      ⟨by simpa using hd, by
        intro x hx
        obtain ⟨a, rfl⟩ := (List.mem_ofFn' _ _).1 hx
        exact hg a⟩, Except.bind_ok]
    refine seqFin_ok _ _ fun i => seqFin_ok _ _ fun j => ?_
    rw [controlVolumeOffsets_eq]; exact hf i j
  -- the fluxes
  set P : Fin d → Fin d → GridVariable d K := fun i j =>
    ⟨⟨⟨g.shape, fun x => f i j x * f j i x⟩, upperFace (v i) j, g⟩, periodicFluxBC d K⟩ with hP
  have hent : ∀ i j, fluxEntry L i j = .ok (P i j) := by
    intro i j
    unfold fluxEntry
    rw [advectionFluxBC_periodic _ _ _ (hLper j i).1, if_pos (hcls j), Except.bind_ok,
      gmap2_ok (by show (v i).array.shape = (v j).array.shape; rw [hsh, hsh]) (hs i j)
        (by show (v i).array.grid = (v j).array.grid; rw [hg, hg]), Except.bind_ok,
      imposeBC_periodic _ _ (by intro _; rfl) (by exact fun b => ((hv i).2 b).1)]
    simp only [hLdef, hP, hsh, hg]
  have hfl : velocitiesToFlux L = .ok P := by
    unfold velocitiesToFlux
    refine seqFin_ok _ _ fun i => seqFin_ok _ _ fun j => ?_
    by_cases hij : i ≤ j
    · rw [if_pos hij, hent]
    · rw [if_neg hij, hent]
      simp only [hP, hs j i]
      congr 4
      funext x; ring
  have hPper : ∀ i j, (P i j).Periodic := fun i j => ⟨fun _ => rfl, fun b => ⟨rfl, by
    show 0 < g.shape b
    rw [← hg i]; exact ((hv i).2 b).2⟩⟩
  set R : Fin d → GridArray d K := fun i => ⟨⟨g.shape, fun x => -∑ a, (f i a x * f a i x -
    f i a (rollIdx g.shape a (-1) x) * f a i (rollIdx g.shape a (-1) x)) / g.step a⟩, (v i).array.offset, g⟩ with hR
  have hdiv : ∀ i, divergence (List.ofFn (P i)) = .ok (gmap (fun x => -x) (R i)) := by
    intro i
    refine (divergence_periodic (hPper i)).2 ⟨hd, fun a => ⟨rfl, ?_, rfl⟩, ?_⟩
    · simp [hP, hR, gmap, upperFace]
    · funext x; simp [hP, hR, gmap, NArr.map]
  have hconv : convectLinear v = .ok R := by
    unfold convectLinear
    rw [hal, Except.bind_ok, hfl, Except.bind_ok]
    refine seqFin_ok _ _ fun i => ?_
    rw [hdiv i, Except.bind_ok]
    refine congrArg Except.ok (GridArray.ext' rfl ?_ rfl rfl)
    funext x; simp [gmap, NArr.map]
  have hadv : ∀ i, advectLinear (v i) v dt = .ok (R i) := by
    intro i
    unfold advectLinear advectGeneral linearFn
    rw [if_pos (hasAllPeriodic_of (hv i).1), seqFin_ok _ (fun a => L a i) (fun a => by
        rw [controlVolumeOffsets_eq, hs i a]; exact hf a i), Except.bind_ok,
      seqFin_ok _ (fun a => L i a) (fun a => by rw [controlVolumeOffsets_eq]; exact hf i a), Except.bind_ok,
      advectAligned_ofFn]
    refine (advectAlignedAxes_periodic (fun a => hLper i a) (fun a => hLper a i)).2 ⟨hd, hcls, fun a =>
      ⟨hsh i, hsh a, hg i, hg a, hs i a, ?_⟩, rfl⟩
    show Function.update (upperFace (v a) i) a (upperFace (v a) i a - 1 / 2) = (v i).array.offset
    rw [← hs i a]
    simp [upperFace]
  refine ⟨R, hconv, fun i => ⟨hadv i, rfl, rfl, ?_⟩⟩
  exact C27_conservation linearFn linearFn C27_linear_keeps_periodic C27_linear_keeps_periodic (v i) v dt (hv i) hv _ (hadv i)

/-! ## C29: energy conservation -/

/-- **C29** On a periodic staggered grid `sum(c * advect_linear(c, v)) = -1/2 sum(c² div v)`: for a divergence-free velocity
centred advection conserves `sum(c²)` exactly. -/
theorem C29_energy [CharZero K] (hd : d ≠ 0) (c : GridVariable d K) (hc : c.Periodic) (v : Fin d → GridVariable d K)
    (hv : StaggeredPeriodic c v) (dt : K) :
    ∃ r dv, advectLinear c v dt = .ok r ∧ divergence (List.ofFn v) = .ok dv ∧
      inner c.array.toNArr r.toNArr = -(1 / 2) * ∑ i ∈ box c.array.shape, c.array.data i ^ 2 * dv.data i ∧
      ((∀ i, InR c.array.shape i → dv.data i = 0) → inner c.array.toNArr r.toNArr = 0) := by
  have hlin : ∀ a, linearFn c (upperFace c a) v dt = .ok ⟨⟨⟨c.array.shape, lerp K c.array.shape a (1 / 2) c.array.data⟩,
      upperFace c a, c.array.grid⟩, c.bc⟩ := by
    intro a
    have := linear_one_axis hc a (c.array.offset a + 1 / 2)
    rw [add_sub_cancel_left] at this
    exact this
  have hr := advectGeneral_staggered hd hc hv linearFn dt _ hlin
    (fun a => ⟨hc.mk' (fun _ => rfl) rfl rfl, rfl, rfl, rfl⟩)
  have hmain : inner c.array.toNArr (⟨c.array.shape, fun i =>
      -∑ a, (lerp K c.array.shape a (1 / 2) c.array.data i * (v a).array.data i -
        lerp K c.array.shape a (1 / 2) c.array.data (rollIdx c.array.shape a (-1) i) *
        (v a).array.data (rollIdx c.array.shape a (-1) i)) / c.array.grid.step a⟩ : NArr d K) =
      -(1 / 2) * ∑ i ∈ box c.array.shape, c.array.data i ^ 2 *
        ∑ a, ((v a).array.data i - (v a).array.data (rollIdx c.array.shape a (-1) i)) / c.array.grid.step a := by
    unfold inner
    simp only [mul_neg, Finset.sum_neg_distrib, neg_mul, Finset.mul_sum, neg_inj]
    rw [Finset.sum_comm, Finset.sum_comm (s := box c.array.shape)]
    refine Finset.sum_congr rfl fun a _ => ?_
    set s := c.array.shape
    set f := c.array.data
    set u := (v a).array.data
    have e1 : ∑ i ∈ box s, f i * (lerp K s a (1 / 2) f (rollIdx s a (-1) i) * u (rollIdx s a (-1) i)) =
        ∑ i ∈ box s, f (rollIdx s a 1 i) * (lerp K s a (1 / 2) f i * u i) :=
      sum_mul_roll s a (-1) f (fun i => lerp K s a (1 / 2) f i * u i)
    have e2 : ∑ i ∈ box s, f i ^ 2 * u (rollIdx s a (-1) i) = ∑ i ∈ box s, f (rollIdx s a 1 i) ^ 2 * u i :=
      sum_mul_roll s a (-1) (fun i => f i ^ 2) u
    have l1 : ∑ i ∈ box s, f i * ((lerp K s a (1 / 2) f i * u i - lerp K s a (1 / 2) f (rollIdx s a (-1) i) *
        u (rollIdx s a (-1) i)) / c.array.grid.step a) =
        (∑ i ∈ box s, (f i * (lerp K s a (1 / 2) f i * u i) - f (rollIdx s a 1 i) * (lerp K s a (1 / 2) f i * u i))) /
          c.array.grid.step a := by
      rw [Finset.sum_sub_distrib, ← e1, ← Finset.sum_sub_distrib, Finset.sum_div]
      exact Finset.sum_congr rfl fun i _ => by ring
    have l2 : ∑ i ∈ box s, 1 / 2 * (f i ^ 2 * ((u i - u (rollIdx s a (-1) i)) / c.array.grid.step a)) =
        (∑ i ∈ box s, (1 / 2 * (f i ^ 2 * u i) - 1 / 2 * (f (rollIdx s a 1 i) ^ 2 * u i))) / c.array.grid.step a := by
      rw [Finset.sum_sub_distrib, ← Finset.mul_sum _ (fun i => f (rollIdx s a 1 i) ^ 2 * u i), ← e2, Finset.mul_sum,
        ← Finset.sum_sub_distrib, Finset.sum_div]
      exact Finset.sum_congr rfl fun i _ => by ring
    rw [l1, l2]
    congr 1
    refine Finset.sum_congr rfl fun i hi => ?_
    rw [lerp_half s a f (mem_box.1 hi)]
    ring
  refine ⟨_, _, hr, divergence_staggered hd hv, hmain, fun h0 => ?_⟩
  rw [hmain]
  have : ∑ i ∈ box c.array.shape, c.array.data i ^ 2 *
        ∑ a, ((v a).array.data i - (v a).array.data (rollIdx c.array.shape a (-1) i)) / c.array.grid.step a = 0 :=
    Finset.sum_eq_zero fun i hi => by
      have := h0 i (mem_box.1 hi)
      dsimp only at this
      rw [this, mul_zero]
  rw [this, mul_zero]

end

section
variable [Field K] [LinearOrder K] [IsStrictOrderedRing K] [HasNan K]

theorem upwind_keeps {c r : GridVariable d K} {o : Fin d → ℚ} {v : Fin d → GridVariable d K} (hc : c.Periodic)
    (h : upwind c o v = .ok r) : r.Periodic ∧ r.array.shape = c.array.shape ∧ r.array.grid = c.array.grid := by
  have hgrid : ∀ {g : Grid d K} {u : GridArray d K}, consistentGrid [c.array, u] = .ok g → g = c.array.grid := by
    intro g u hg
    exact ((uniqueOr_eq_ok.1 hg).2 c.array (by simp)).symm
  unfold upwind at h
  by_cases ho : c.array.offset = o
  · rw [if_pos ho] at h
    injection h with h; subst h
    exact ⟨hc, rfl, rfl⟩
  · rw [if_neg ho] at h
    generalize interpolationAxes c.array.offset o = l at h
    match l, h with
    | [ax], h =>
      unfold upwindAlong at h
      dsimp only at h
      by_cases hi : ((⌊(v ax).array.offset ax - c.array.offset ax⌋ : ℤ) : ℚ) = (v ax).array.offset ax - c.array.offset ax
      · rw [if_pos hi, hc.shift, Except.bind_ok] at h
        obtain ⟨g, hg, h⟩ := Except.bind_eq_ok.1 h
        injection h with h; subst h
        have := hgrid hg
        subst this
        exact ⟨hc.mk' (fun _ => rfl) rfl rfl, rfl, rfl⟩
      · rw [if_neg hi, hc.shift, Except.bind_ok, hc.shift, Except.bind_ok] at h
        obtain ⟨w, hw, h⟩ := Except.bind_eq_ok.1 h
        obtain ⟨g, hg, h⟩ := Except.bind_eq_ok.1 h
        injection h with h; subst h
        have := hgrid hg
        subst this
        have hws : w.shape = c.array.shape := by
          unfold jnpWhere at hw
          split at hw
          · injection hw with hw; subst hw; rfl
          · cases hw
        exact ⟨hc.mk' (fun a => (hc.1 a).symm) hws rfl, hws, rfl⟩

/-- **C27** `interpolation.upwind` returns periodic variables. -/
theorem C27_upwind_keeps_periodic : KeepsPeriodic (upwindFn (d := d) (K := K)) :=
  fun _ _ _ _ _ hc h => (upwind_keeps hc h).1

/-- **C27** Limited interpolation (any second interpolation function, any limiter) returns periodic variables. -/
theorem C27_limited_keeps_periodic (fn : InterpFn d K) (limiter : K → K) :
    KeepsPeriodic (tvdInterpolation fn limiter) := by
  have step : ∀ (o : Fin d → ℚ) (v : Fin d → GridVariable d K) (dt : K) (c r : GridVariable d K) (a : Fin d), c.Periodic →
      tvdAxis fn limiter o v dt c a = .ok r → r.Periodic := by
    intro o v dt c r a hc h
    unfold tvdAxis at h
    by_cases h1 : Function.update c.array.offset a (o a) ≠ c.array.offset
    · rw [if_pos h1] at h
      by_cases h2 : o a - c.array.offset a ≠ 1 / 2
      · rw [if_pos h2] at h; cases h
      · rw [if_neg h2] at h
        unfold tvdAxisBody at h
        obtain ⟨low, hlow, h⟩ := Except.bind_eq_ok.1 h
        obtain ⟨_, -, h⟩ := Except.bind_eq_ok.1 h
        obtain ⟨_, -, h⟩ := Except.bind_eq_ok.1 h
        obtain ⟨_, -, h⟩ := Except.bind_eq_ok.1 h
        obtain ⟨_, -, h⟩ := Except.bind_eq_ok.1 h
        dsimp only at h
        obtain ⟨_, -, h⟩ := Except.bind_eq_ok.1 h
        obtain ⟨_, -, h⟩ := Except.bind_eq_ok.1 h
        obtain ⟨_, -, h⟩ := Except.bind_eq_ok.1 h
        obtain ⟨_, -, h⟩ := Except.bind_eq_ok.1 h
        obtain ⟨_, -, h⟩ := Except.bind_eq_ok.1 h
        obtain ⟨res, hres, h⟩ := Except.bind_eq_ok.1 h
        injection h with h; subst h
        have hs := (gmap2_eq_ok.1 hres).2.2.2
        exact hc.mk' (fun _ => rfl) (by rw [hs]; exact (upwind_keeps hc hlow).2.1) rfl
    · rw [if_neg h1] at h
      injection h with h; subst h; exact hc
  intro c o v dt r hc h
  unfold tvdInterpolation at h
  have : ∀ (l : List (Fin d)) (c : GridVariable d K), c.Periodic → l.foldlM (tvdAxis fn limiter o v dt) c = .ok r →
      r.Periodic := by
    intro l
    induction l with
    | nil => intro c hc h; injection h with h; subst h; exact hc
    | cons a l ih =>
      intro c hc h
      rw [List.foldlM_cons] at h
      obtain ⟨m, hm, h⟩ := Except.bind_eq_ok.1 h
      exact ih m (step o v dt c m a hc hm) h
  exact this _ c hc h

/-- The face values of the three advection schemes. -/
theorem schemes_staggered (hd : d ≠ 0) {c : GridVariable d K} (hc : c.Periodic) {v : Fin d → GridVariable d K}
    (hv : StaggeredPeriodic c v) (dt : K) :
    ∃ (L U V : Fin d → Idx d → K),
      (∀ a, L a = lerp K c.array.shape a (1 / 2) c.array.data) ∧
      (∀ a, U a = fun i => if 0 < (v a).array.data i then c.array.data (rollIdx c.array.shape a 0 i)
        else c.array.data (rollIdx c.array.shape a 1 i)) ∧
      (∀ k, (∀ i, InR c.array.shape i → c.array.data i = k) → ∀ a i, InR c.array.shape i → V a i = k) ∧
      (∀ (x : Bool × Bool) (F : Fin d → Idx d → K), F = (if x.1 then L else if x.2 then U else V) →
        (if x.1 then advectLinear c v dt else if x.2 then advectUpwind c v dt else advectVanLeerUsingLimiters c v dt) =
        .ok ⟨⟨c.array.shape, fun i => -∑ a, (F a i * (v a).array.data i - F a (rollIdx c.array.shape a (-1) i) *
          (v a).array.data (rollIdx c.array.shape a (-1) i)) / c.array.grid.step a⟩, c.array.offset, c.array.grid⟩) := by
  have hlw : ∀ a, _ := fun a => laxWendroff_half hc a v dt (hv a).2.2.1 (hv a).2.2.2.1 (by rw [(hv a).2.2.2.2]; simp)
  have hV : ∀ a, ∃ W : GridVariable d K, tvdInterpolation laxWendroff vanLeer c (upperFace c a) v dt = .ok W ∧
      W.array.shape = c.array.shape ∧ W.array.grid = c.array.grid ∧ W.array.offset = upperFace c a ∧ W.bc = c.bc ∧
      (∀ k, (∀ i, InR c.array.shape i → c.array.data i = k) → ∀ i, InR c.array.shape i → W.array.data i = k) := by
    intro a
    refine ⟨_, tvd_half hc a v dt laxWendroff vanLeer _ (hv a).2.2.1 (hv a).2.2.2.1 (hv a).2.2.2.2 (hlw a) rfl
      (hv a).2.2.2.2.symm rfl, rfl, rfl, rfl, rfl, ?_⟩
    intro k hk i hi
    have h0 := hk _ (rollIdx_inR hi a 0)
    have h1 := hk _ (rollIdx_inR hi a 1)
    simp only [h0, h1]
    split_ifs <;> ring
  choose W hW hWs hWg hWo hWb hWk using hV
  refine ⟨_, _, fun a => (W a).array.data, fun a => rfl, fun a => rfl, fun k hk a i hi => hWk a k hk i hi, ?_⟩
  rintro ⟨x1, x2⟩ F rfl
  cases x1 with
  | true =>
    simp only [if_true]
    refine advectGeneral_staggered hd hc hv linearFn dt (fun a => ⟨⟨⟨c.array.shape,
      lerp K c.array.shape a (1 / 2) c.array.data⟩, upperFace c a, c.array.grid⟩, c.bc⟩) (fun a => ?_)
      (fun a => ⟨hc.mk' (fun _ => rfl) rfl rfl, rfl, rfl, rfl⟩)
    have := linear_one_axis hc a (c.array.offset a + 1 / 2)
    rw [add_sub_cancel_left] at this
    exact this
  | false =>
    cases x2 with
    | true =>
      simp only [if_true, Bool.false_eq_true, if_false]
      exact advectGeneral_staggered hd hc hv upwindFn dt _ (fun a => upwind_half hc a v (hv a).2.2.1 (hv a).2.2.2.1
        (by rw [(hv a).2.2.2.2]; simp)) (fun a => ⟨hc.mk' (fun b => (hc.1 b).symm) rfl rfl, rfl, rfl, rfl⟩)
    | false =>
      simp only [Bool.false_eq_true, if_false]
      exact advectGeneral_staggered hd hc hv (tvdInterpolation laxWendroff vanLeer) dt W hW (fun a =>
        ⟨hc.mk' (fun b => by rw [hWb a]) (hWs a) (hWg a), hWs a, hWg a, hWo a⟩)

/-- **C27** On a periodic staggered grid the three schemes succeed, and their tendencies have the offset of the scalar and sum
to zero. -/
theorem C27_schemes_conserve (hd : d ≠ 0) (c : GridVariable d K) (hc : c.Periodic) (v : Fin d → GridVariable d K)
    (hv : StaggeredPeriodic c v) (dt : K) :
    (∃ r, advectLinear c v dt = .ok r ∧ r.offset = c.array.offset ∧ r.toNArr.sum = 0) ∧
    (∃ r, advectUpwind c v dt = .ok r ∧ r.offset = c.array.offset ∧ r.toNArr.sum = 0) ∧
    (∃ r, advectVanLeerUsingLimiters c v dt = .ok r ∧ r.offset = c.array.offset ∧ r.toNArr.sum = 0) := by
  obtain ⟨L, U, V, -, -, -, h⟩ := schemes_staggered hd hc hv dt
  have hvp := fun a => (hv a).1
  have h1 := h (true, true) _ rfl
  have h2 := h (false, true) _ rfl
  have h3 := h (false, false) _ rfl
  simp only [if_true, Bool.false_eq_true, if_false] at h1 h2 h3
  exact ⟨⟨_, h1, rfl, C27_conservation _ _ C27_linear_keeps_periodic C27_linear_keeps_periodic c v dt hc hvp _ h1⟩,
    ⟨_, h2, rfl, C27_conservation _ _ C27_linear_keeps_periodic C27_upwind_keeps_periodic c v dt hc hvp _ h2⟩,
    ⟨_, h3, rfl, C27_conservation _ _ C27_linear_keeps_periodic (C27_limited_keeps_periodic _ _) c v dt hc hvp _ h3⟩⟩

/-- **C27** Non-periodic scalars are rejected by every scheme built on `advect_general`. -/
theorem C27_non_periodic_rejected (uFn cFn : InterpFn d K) (c : GridVariable d K) (v : Fin d → GridVariable d K) (dt : K)
    (h : ∃ a, (c.bc.types a).1 ≠ .periodic) : advectGeneral uFn cFn c v dt = .error .notImplemented := by
  unfold advectGeneral
  rw [if_neg]
  obtain ⟨a, ha⟩ := h
  simp only [hasAllPeriodic, List.all_cons, List.all_nil, Bool.and_true, List.all_eq_true, isPeriodicBC, not_forall]
  exact ⟨a, by simp, by simp [ha]⟩

/-! ## C28: constants -/

/-- **C28** The tendency of a constant scalar `k` is `-k div v` for all three schemes: zero for a divergence-free velocity. -/
theorem C28_constant (hd : d ≠ 0) (c : GridVariable d K) (hc : c.Periodic) (v : Fin d → GridVariable d K)
    (hv : StaggeredPeriodic c v) (dt k : K) (hk : ∀ i, InR c.array.shape i → c.array.data i = k) :
    ∃ dv, divergence (List.ofFn v) = .ok dv ∧
      (∃ r, advectLinear c v dt = .ok r ∧ r.shape = c.array.shape ∧
        ∀ i, InR c.array.shape i → r.data i = -k * dv.data i) ∧
      (∃ r, advectUpwind c v dt = .ok r ∧ r.shape = c.array.shape ∧
        ∀ i, InR c.array.shape i → r.data i = -k * dv.data i) ∧
      (∃ r, advectVanLeerUsingLimiters c v dt = .ok r ∧ r.shape = c.array.shape ∧
        ∀ i, InR c.array.shape i → r.data i = -k * dv.data i) := by
  obtain ⟨L, U, V, hL, hU, hV, h⟩ := schemes_staggered hd hc hv dt
  have hLk : ∀ a i, InR c.array.shape i → L a i = k := by
    intro a i hi
    rw [hL, lerp_half _ _ _ hi, hk i hi, hk _ (rollIdx_inR hi a 1)]; ring
  have hUk : ∀ a i, InR c.array.shape i → U a i = k := by
    intro a i hi
    rw [hU]
    dsimp only
    rw [hk _ (rollIdx_inR hi a 0), hk _ (rollIdx_inR hi a 1)]; simp
  have alg : ∀ F : Fin d → Idx d → K, (∀ a i, InR c.array.shape i → F a i = k) → ∀ i, InR c.array.shape i →
      -∑ a, (F a i * (v a).array.data i - F a (rollIdx c.array.shape a (-1) i) *
          (v a).array.data (rollIdx c.array.shape a (-1) i)) / c.array.grid.step a =
      -k * ∑ a, ((v a).array.data i - (v a).array.data (rollIdx c.array.shape a (-1) i)) / c.array.grid.step a := by
    intro F hF i hi
    rw [Finset.mul_sum, ← Finset.sum_neg_distrib]
    refine Finset.sum_congr rfl fun a _ => ?_
    rw [hF a i hi, hF a _ (rollIdx_inR hi a (-1))]; ring
  have h1 := h (true, true) _ rfl
  have h2 := h (false, true) _ rfl
  have h3 := h (false, false) _ rfl
  simp only [if_true, Bool.false_eq_true, if_false] at h1 h2 h3
  exact ⟨_, divergence_staggered hd hv, ⟨_, h1, rfl, alg L hLk⟩, ⟨_, h2, rfl, alg U hUk⟩,
    ⟨_, h3, rfl, alg V (fun a i hi => hV k hk a i hi)⟩⟩

/-! ## C30: maximum principle -/

/-- Total outflow rate of cell `i`: through each upper face where the flow is upward and each lower face where it is
downward, divided by the cell size. -/
def outflow (c : GridVariable d K) (v : Fin d → GridVariable d K) (i : Idx d) : K :=
  ∑ a, (max ((v a).array.data i) 0 + max (-(v a).array.data (rollIdx c.array.shape a (-1) i)) 0) / c.array.grid.step a

/-- **C30** For a divergence-free periodic velocity and a time step that removes at most the content of each cell
(`dt * outflow ≤ 1`), one explicit step `c + dt * advect_upwind(c, v)` stays within any bounds on `c`. -/
theorem C30_upwind_maximum_principle (hd : d ≠ 0) (c : GridVariable d K) (hc : c.Periodic) (v : Fin d → GridVariable d K)
    (hv : StaggeredPeriodic c v) (dt : K) (hdt : 0 ≤ dt) (hstep : ∀ a, 0 < c.array.grid.step a)
    (dv : GridArray d K) (hdiv : divergence (List.ofFn v) = .ok dv) (hdv : ∀ i, InR c.array.shape i → dv.data i = 0)
    (hcfl : ∀ i, InR c.array.shape i → dt * outflow c v i ≤ 1)
    (lo hi : K) (hb : ∀ i, InR c.array.shape i → lo ≤ c.array.data i ∧ c.array.data i ≤ hi) :
    ∃ r, advectUpwind c v dt = .ok r ∧ r.shape = c.array.shape ∧
      ∀ i, InR c.array.shape i → lo ≤ c.array.data i + dt * r.data i ∧ c.array.data i + dt * r.data i ≤ hi := by
  obtain ⟨L, U, V, -, hU, -, h⟩ := schemes_staggered hd hc hv dt
  have h2 := h (false, true) _ rfl
  simp only [if_true, Bool.false_eq_true, if_false] at h2
  refine ⟨_, h2, rfl, fun i hi' => ?_⟩
  rw [divergence_staggered hd hv] at hdiv
  injection hdiv with hdiv; subst hdiv
  have hz := hdv i hi'
  dsimp only at hz ⊢
  -- the flux of each axis, relative to an arbitrary reference value `k`
  have key : ∀ k : K, -∑ a, (U a i * (v a).array.data i - U a (rollIdx c.array.shape a (-1) i) *
          (v a).array.data (rollIdx c.array.shape a (-1) i)) / c.array.grid.step a =
      ∑ a, (-((c.array.data i - k) * (max ((v a).array.data i) 0 + max (-(v a).array.data (rollIdx c.array.shape a (-1) i)) 0) / c.array.grid.step a) +
        ((c.array.data (rollIdx c.array.shape a 1 i) - k) * max (-(v a).array.data i) 0 +
         (c.array.data (rollIdx c.array.shape a (-1) i) - k) * max ((v a).array.data (rollIdx c.array.shape a (-1) i)) 0) /
          c.array.grid.step a) := by
    intro k
    have hz' : k * ∑ a, ((v a).array.data i - (v a).array.data (rollIdx c.array.shape a (-1) i)) / c.array.grid.step a = 0 := by
      rw [hz, mul_zero]
    have e : ∀ X : K, X = X + k * ∑ a, ((v a).array.data i - (v a).array.data (rollIdx c.array.shape a (-1) i)) /
        c.array.grid.step a := fun X => by rw [hz', add_zero]
    rw [e (-_), Finset.mul_sum, ← Finset.sum_neg_distrib, ← Finset.sum_add_distrib]
    refine Finset.sum_congr rfl fun a _ => ?_
    have hne := (hstep a).ne'
    rw [hU]
    dsimp only
    rw [rollIdx_zero hi', rollIdx_zero (rollIdx_inR hi' a (-1)), rollIdx_add, neg_add_cancel, rollIdx_zero hi']
    set u := (v a).array.data i
    set w := (v a).array.data (rollIdx c.array.shape a (-1) i)
    set x := c.array.data i
    set y := c.array.data (rollIdx c.array.shape a 1 i)
    set z := c.array.data (rollIdx c.array.shape a (-1) i)
    rcases lt_or_ge 0 u with hu | hu <;> rcases lt_or_ge 0 w with hw | hw
    · rw [if_pos hu, if_pos hw, max_eq_left hu.le, max_eq_right (by linarith), max_eq_right (by linarith),
        max_eq_left hw.le]; ring
    · rw [if_pos hu, if_neg (not_lt.2 hw), max_eq_left hu.le, max_eq_left (by linarith), max_eq_right (by linarith),
        max_eq_right hw]; ring
    · rw [if_neg (not_lt.2 hu), if_pos hw, max_eq_right hu, max_eq_right (by linarith), max_eq_left (by linarith),
        max_eq_left hw.le]; ring
    · rw [if_neg (not_lt.2 hu), if_neg (not_lt.2 hw), max_eq_right hu, max_eq_left (by linarith), max_eq_left (by linarith),
        max_eq_right hw]; ring
  have hout := hcfl i hi'
  have split : ∀ k : K, c.array.data i + dt * (-∑ a, (U a i * (v a).array.data i - U a (rollIdx c.array.shape a (-1) i) *
          (v a).array.data (rollIdx c.array.shape a (-1) i)) / c.array.grid.step a) =
      k + (c.array.data i - k) * (1 - dt * outflow c v i) +
      dt * ∑ a, ((c.array.data (rollIdx c.array.shape a 1 i) - k) * max (-(v a).array.data i) 0 +
         (c.array.data (rollIdx c.array.shape a (-1) i) - k) * max ((v a).array.data (rollIdx c.array.shape a (-1) i)) 0) /
          c.array.grid.step a := by
    intro k
    rw [key k, Finset.sum_add_distrib, Finset.sum_neg_distrib]
    have : ∑ a, (c.array.data i - k) * (max ((v a).array.data i) 0 + max (-(v a).array.data (rollIdx c.array.shape a (-1) i)) 0) / c.array.grid.step a =
        (c.array.data i - k) * outflow c v i := by
      unfold outflow
      rw [Finset.mul_sum]
      exact Finset.sum_congr rfl fun a _ => by ring
    rw [this]; ring
  constructor
  · rw [split lo]
    have h1 : 0 ≤ (c.array.data i - lo) * (1 - dt * outflow c v i) :=
      mul_nonneg (by linarith [(hb i hi').1]) (by linarith)
    have h2 : 0 ≤ ∑ a, ((c.array.data (rollIdx c.array.shape a 1 i) - lo) * max (-(v a).array.data i) 0 +
         (c.array.data (rollIdx c.array.shape a (-1) i) - lo) * max ((v a).array.data (rollIdx c.array.shape a (-1) i)) 0) /
          c.array.grid.step a := by
      refine Finset.sum_nonneg fun a _ => div_nonneg (add_nonneg (mul_nonneg ?_ (le_max_right _ _))
        (mul_nonneg ?_ (le_max_right _ _))) (hstep a).le
      · linarith [(hb _ (rollIdx_inR hi' a 1)).1]
      · linarith [(hb _ (rollIdx_inR hi' a (-1))).1]
    have := mul_nonneg hdt h2
    linarith
  · rw [split hi]
    have h1 : (c.array.data i - hi) * (1 - dt * outflow c v i) ≤ 0 :=
      mul_nonpos_of_nonpos_of_nonneg (by linarith [(hb i hi').2]) (by linarith)
    have h2 : ∑ a, ((c.array.data (rollIdx c.array.shape a 1 i) - hi) * max (-(v a).array.data i) 0 +
         (c.array.data (rollIdx c.array.shape a (-1) i) - hi) * max ((v a).array.data (rollIdx c.array.shape a (-1) i)) 0) /
          c.array.grid.step a ≤ 0 := by
      refine Finset.sum_nonpos fun a _ => div_nonpos_of_nonpos_of_nonneg (add_nonpos (mul_nonpos_of_nonpos_of_nonneg ?_ (le_max_right _ _))
        (mul_nonpos_of_nonpos_of_nonneg ?_ (le_max_right _ _))) (hstep a).le
      · linarith [(hb _ (rollIdx_inR hi' a 1)).2]
      · linarith [(hb _ (rollIdx_inR hi' a (-1))).2]
    have := mul_nonpos_of_nonneg_of_nonpos hdt h2
    linarith

end

/-! ## Non-vacuity -/

section examples
open Fixtures

theorem pv34_staggered : StaggeredPeriodic pu34 pv34 := fun a => ⟨pv34_periodic a, rfl, pv34_face a⟩

-- hypotheses of C27_convect_linear
example : (∀ a, (pv34 a).array.grid = g34) ∧ ∀ i j, upperFace (pv34 i) j = upperFace (pv34 j) i := by
  refine ⟨fun _ => rfl, ?_⟩
  intro i j
  funext b
  fin_cases i <;> fin_cases j <;> fin_cases b <;> simp [upperFace, pv34] <;> norm_num

/-- a divergence-free velocity: a shear flow with both signs -/
def shear34 (a : Fin 2) : GridVariable 2 ℚ :=
  ⟨⟨⟨![3, 4], fun i => if a = 0 then (i 1 : ℚ) - 2 else (i 0 : ℚ) - 1⟩, fun b => if b = a then 1 else 1 / 2, g34⟩, bcPer2⟩

theorem shear34_staggered : StaggeredPeriodic pu34 shear34 := by
  intro a
  refine ⟨(pv34_periodic a).mk' (fun _ => rfl) rfl rfl, rfl, rfl, rfl, ?_⟩
  exact (pv34_face a).2.2

-- hypotheses of C30: divergence free, CFL bound with dt = 1/10, velocities of both signs
example : (∃ dv, divergence (List.ofFn shear34) = .ok dv ∧ ∀ i, InR pu34.array.shape i → dv.data i = 0) ∧
    (∀ i, InR pu34.array.shape i → 1 / 10 * outflow pu34 shear34 i ≤ 1) ∧
    (∀ a, 0 < pu34.array.grid.step a) := by
  have h10 : (1 : Fin 2) ≠ 0 := by decide
  have hs0 : pu34.array.grid.step 0 = 1 := by norm_num [Grid.step, pu34, u34, g34]
  have hs1 : pu34.array.grid.step 1 = 1 / 2 := by norm_num [Grid.step, pu34, u34, g34]
  refine ⟨⟨_, divergence_staggered (by norm_num) shear34_staggered, ?_⟩, ?_, ?_⟩
  · intro i hi
    simp [Fin.sum_univ_two, shear34, rollIdx]
  · intro i hi
    have h0 := hi 0
    have h1 := hi 1
    have e0 : pu34.array.shape 0 = 3 := rfl
    have e1 : pu34.array.shape 1 = 4 := rfl
    rw [e0] at h0
    rw [e1] at h1
    have q0 : (i 0 : ℚ) - 1 ≤ 1 := by have : i 0 ≤ 2 := by omega
                                      have : (i 0 : ℚ) ≤ 2 := by exact_mod_cast this
                                      linarith
    have q0' : -((i 0 : ℚ) - 1) ≤ 1 := by have : (0 : ℚ) ≤ i 0 := by exact_mod_cast h0.1
                                          linarith
    have q1 : (i 1 : ℚ) - 2 ≤ 1 := by have : i 1 ≤ 3 := by omega
                                      have : (i 1 : ℚ) ≤ 3 := by exact_mod_cast this
                                      linarith
    have q1' : -((i 1 : ℚ) - 2) ≤ 2 := by have : (0 : ℚ) ≤ i 1 := by exact_mod_cast h1.1
                                          linarith
    unfold outflow
    rw [Fin.sum_univ_two, hs0, hs1]
    simp only [shear34, rollIdx, h10, if_true, if_false, ne_eq, not_false_eq_true,
      Function.update_of_ne, h10.symm]
    have m1 := max_le q1 (by norm_num : (0 : ℚ) ≤ 1)
    have m2 := max_le q1' (by norm_num : (0 : ℚ) ≤ 2)
    have m3 := max_le q0 (by norm_num : (0 : ℚ) ≤ 1)
    have m4 := max_le q0' (by norm_num : (0 : ℚ) ≤ 1)
    linarith
  · intro a
    fin_cases a
    · show 0 < pu34.array.grid.step 0
      rw [hs0]; norm_num
    · show 0 < pu34.array.grid.step 1
      rw [hs1]; norm_num
end examples

end JaxCfd
