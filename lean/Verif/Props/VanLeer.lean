import Verif.Props.Advection

/-!
# Property theorems: the two van Leer implementations agree (C27)
-/

set_option linter.unusedSectionVars false

namespace JaxCfd

variable {d : ℕ} {K : Type} [Field K] [LinearOrder K] [IsStrictOrderedRing K] [HasNan K]

/-- The staged quotient of `advect_van_leer` is the limiter applied to the ratio, times the difference across the face. -/
theorem vanLeerSlope_eq (u ll l c r : K) :
    vanLeerSlope u ll l c r = vanLeer (safeDiv (if 0 < u then l - ll else r - c) (c - l)) * (c - l) := by
  unfold vanLeerSlope
  dsimp only
  generalize (if 0 < u then l - ll else r - c) = n
  generalize c - l = e
  rcases lt_trichotomy e 0 with he | he | he
  · have he0 : e ≠ 0 := he.ne
    have hs : sgn e = -1 := by simp [sgn, he, not_lt.2 he.le]
    rw [hs, if_pos (abs_pos.2 he0), abs_of_neg he]
    simp only [safeDiv, ne_eq, he0, not_false_eq_true, if_true]
    rcases lt_trichotomy n 0 with hn | hn | hn
    · have hr : 0 < n / e := div_pos_of_neg_of_neg hn he
      have h1 : (1 : K) + n / e ≠ 0 := by positivity
      rw [abs_of_neg hn, show sgn n = -1 by simp [sgn, hn, not_lt.2 hn.le]]
      simp only [vanLeer, hr, if_true, safeDiv, ne_eq, h1, not_false_eq_true]
      have h2 : -e + -n ≠ 0 := by intro h; linarith
      have h3 : e + n ≠ 0 := by intro h; apply h2; linarith
      rw [show (1 : K) + n / e = (e + n) / e by field_simp]
      field_simp
      ring
    · subst hn; simp [vanLeer]
    · have hr : ¬ 0 < n / e := not_lt.2 (div_nonpos_of_nonneg_of_nonpos hn.le he.le)
      rw [show sgn n = 1 by simp [sgn, hn]]
      simp [vanLeer, hr]
  · subst he; simp
  · have he0 : e ≠ 0 := he.ne'
    have hs : sgn e = 1 := by simp [sgn, he]
    rw [hs, if_pos (abs_pos.2 he0), abs_of_pos he]
    simp only [safeDiv, ne_eq, he0, not_false_eq_true, if_true]
    rcases lt_trichotomy n 0 with hn | hn | hn
    · have hr : ¬ 0 < n / e := not_lt.2 (div_nonpos_of_nonpos_of_nonneg hn.le he.le)
      rw [show sgn n = -1 by simp [sgn, hn, not_lt.2 hn.le]]
      simp [vanLeer, hr]
    · subst hn; simp [vanLeer]
    · have hr : 0 < n / e := div_pos hn he
      have h1 : (1 : K) + n / e ≠ 0 := by positivity
      rw [abs_of_pos hn, show sgn n = 1 by simp [sgn, hn]]
      simp only [vanLeer, hr, if_true, safeDiv, ne_eq, h1, not_false_eq_true]
      have h3 : e + n ≠ 0 := by positivity
      rw [show (1 : K) + n / e = (e + n) / e by field_simp]
      field_simp
      ring

/-- A fold of shifts by zero and periodic `impose_bc` changes nothing in range. -/
theorem fold_shift_zero {c : GridVariable d K} (hc : c.Periodic) (l : List (Fin d)) (k : Fin d → ℤ) (hk : ∀ a, k a = 0)
    (w : GridArray d K) (hs : w.shape = c.array.shape) (hg : w.grid = c.array.grid) :
    ∃ r, l.foldlM (fun r ax => c.bc.shift r (k ax) ax) w = .ok r ∧ r.shape = w.shape ∧ r.grid = w.grid ∧
      r.offset = w.offset ∧ ∀ i, InR w.shape i → r.data i = w.data i := by
  induction l generalizing w with
  | nil => exact ⟨w, rfl, rfl, rfl, rfl, fun _ _ => rfl⟩
  | cons a l ih =>
    have hw : (⟨w, c.bc⟩ : GridVariable d K).Periodic := hc.mk' (fun _ => rfl) hs hg
    have h1 := hw.shift 0 a
    unfold GridVariable.shift at h1
    dsimp only at h1
    rw [List.foldlM_cons, hk a, h1, Except.bind_ok]
    obtain ⟨r, hr, r1, r2, r3, r4⟩ := ih ⟨⟨w.shape, fun i => w.data (rollIdx w.shape a 0 i)⟩,
      Function.update w.offset a (w.offset a + ((0 : ℤ) : ℚ)), w.grid⟩ hs hg
    refine ⟨r, hr, r1, r2, r3.trans (by simp), fun i hi => ?_⟩
    rw [r4 i hi]
    simp only [rollIdx_zero hi]

theorem fold_shift_impose {c : GridVariable d K} (hc : c.Periodic) (l : List (Fin d)) (k : Fin d → ℤ) (hk : ∀ a, k a = 0)
    (w : GridVariable d K) (hb : w.bc = c.bc) (hs : w.array.shape = c.array.shape) (hg : w.array.grid = c.array.grid) :
    ∃ r, l.foldlM (fun cl ax => do
        let s ← GridVariable.shift cl (k ax) ax
        c.bc.imposeBC s) w = .ok r ∧ r.bc = c.bc ∧ r.array.shape = w.array.shape ∧ r.array.grid = w.array.grid ∧
      r.array.offset = w.array.offset ∧ ∀ i, InR w.array.shape i → r.array.data i = w.array.data i := by
  induction l generalizing w with
  | nil => exact ⟨w, rfl, hb, rfl, rfl, rfl, fun _ _ => rfl⟩
  | cons a l ih =>
    have hw : w.Periodic := hc.mk' (fun _ => by rw [hb]) hs hg
    rw [List.foldlM_cons, hk a, hw.shift, Except.bind_ok, imposeBC_periodic _ _ hc.1 (by
      intro b; show w.array.shape b = w.array.grid.shape b; rw [hs, hg]; exact (hc.2 b).1), Except.bind_ok]
    obtain ⟨r, hr, r1, r2, r3, r4, r5⟩ := ih ⟨⟨⟨w.array.shape, fun i => w.array.data (rollIdx w.array.shape a 0 i)⟩,
      Function.update w.array.offset a (w.array.offset a + ((0 : ℤ) : ℚ)), w.array.grid⟩, c.bc⟩ rfl hs hg
    refine ⟨r, hr, r1, r2, r3, r4.trans (by simp), fun i hi => ?_⟩
    rw [r5 i hi]
    simp only [rollIdx_zero hi]

theorem pyInt_facts : pyInt (Int.fract (1 / 2) - 1 / 2) = 0 ∧ pyInt (Int.fract 1 - 1) = -1 ∧ pyInt (1 - 1 / 2) = 0 ∧
    pyInt (1 - 0) = 1 := by
  have e2 : Int.fract (1 / 2 : ℚ) = 1 / 2 := by
    rw [Int.fract_eq_iff]; refine ⟨by norm_num, by norm_num, 0, by norm_num⟩
  refine ⟨by rw [e2]; norm_num [pyInt], by norm_num [pyInt, Int.fract_one], by norm_num [pyInt], by norm_num [pyInt]⟩

/-- **C27** On a periodic staggered grid with a cell-centred scalar, `advect_van_leer` (in any padding mode) and
`advect_van_leer_using_limiters` both succeed and return the same tendency; so the former conserves the scalar too. -/
theorem C27_van_leer_implementations_agree (c : GridVariable d K) (hc : c.Periodic) (hoff : ∀ a, c.array.offset a = 1 / 2)
    (v : Fin d → GridVariable d K) (hv : StaggeredPeriodic c v) (dt : K) (mode : Padding) (lastAxis : Fin d) :
    ∃ r r', advectVanLeer lastAxis c v dt mode = .ok r ∧ advectVanLeerUsingLimiters c v dt = .ok r' ∧
      r.offset = r'.offset ∧ r.grid = r'.grid ∧ r.shape = r'.shape ∧ (∀ i, InR r.shape i → r.data i = r'.data i) ∧
      r.toNArr.sum = 0 := by
  have hd : d ≠ 0 := fun h => by subst h; exact lastAxis.elim0
  obtain ⟨p1, p2, p3, p4⟩ := pyInt_facts
  -- the scheme built on limiters
  have hlw : ∀ a, _ := fun a => laxWendroff_half hc a v dt (hv a).2.2.1 (hv a).2.2.2.1 (by rw [(hv a).2.2.2.2]; simp)
  have htvd := fun a => tvd_half hc a v dt laxWendroff vanLeer _ (hv a).2.2.1 (hv a).2.2.2.1 (hv a).2.2.2.2 (hlw a) rfl
      (hv a).2.2.2.2.symm rfl
  have hlim := advectGeneral_staggered hd hc hv (tvdInterpolation laxWendroff vanLeer) dt _ htvd
    (fun a => ⟨hc.mk' (fun b => rfl) rfl rfl, rfl, rfl, rfl⟩)
  -- the direct scheme
  obtain ⟨cl, hcl, cb, cs, cg, co, cd⟩ := fold_shift_impose hc (List.finRange d)
    (fun ax => pyInt (Int.fract (c.array.offset ax) - c.array.offset ax)) (fun a => by rw [hoff]; exact p1) c rfl rfl rfl
  have hclper : cl.Periodic := hc.mk' (fun _ => by rw [cb]) cs cg
  have hcv : ∀ a, controlVolumeOffsets cl.array a = upperFace c a := by
    intro a
    rw [controlVolumeOffsets_eq]
    unfold upperFace
    rw [co]
  have hvo : ∀ a, (v a).array.offset a = 1 := by
    intro a
    rw [(hv a).2.2.2.2, Function.update_self, hoff]; norm_num
  set s := c.array.shape with hs
  set up : Fin d → GridArray d K := fun a => ⟨⟨s, fun i => if 0 < (v a).array.data i then
      (v a).array.data i * cl.array.data i else (v a).array.data i * cl.array.data (rollIdx s a 1 i)⟩,
      (v a).array.offset, c.array.grid⟩ with hup
  have hupwind : ∀ a, vanLeerUpwindFlux cl (v a) a = .ok (up a) := by
    intro a
    unfold vanLeerUpwindFlux
    rw [hclper.shift, Except.bind_ok, jnpWhere_ok (by rfl) (by rfl), Except.bind_ok]
    refine congrArg Except.ok (GridArray.ext' (hv a).2.2.1 ?_ rfl (hv a).2.2.2.1)
    funext i
    simp [isPositive, NArr.map, NArr.map2, hup, cs, hs]
  -- correction
  have hcorr : ∀ a, ∃ corr : GridArray d K,
      vanLeerCorrection c (v a) (periodicFluxBC d K) (upperFace c a a) dt mode lastAxis a = .ok corr ∧
      corr.shape = s ∧ corr.grid = c.array.grid ∧ corr.offset = (v a).array.offset ∧
      ∀ i, InR s i → corr.data i = 1 / 2 * (1 - dt / c.array.grid.step a * |(v a).array.data i|) * |(v a).array.data i| *
        vanLeerSlope ((v a).array.data i) (c.array.data (rollIdx s a (-1) i)) (c.array.data i)
          (c.array.data (rollIdx s a 1 i)) (c.array.data (rollIdx s a 2 i)) := by
    intro a
    have hus := (hv a).1.shift (-1) a
    have hcc := hc.shift 0 lastAxis
    rw [← hs] at hcc
    have hper : ∀ (w : GridArray d K), w.shape = s → w.grid = c.array.grid → ∀ (k : ℤ) (m : Padding),
        c.bc.shift w k a m = .ok ⟨⟨w.shape, fun i => w.data (rollIdx w.shape a k i)⟩,
          Function.update w.offset a (w.offset a + k), w.grid⟩ := by
      intro w h1 h2 k m
      have hw : (⟨w, c.bc⟩ : GridVariable d K).Periodic := hc.mk' (fun _ => rfl) h1 h2
      exact hw.shift k a m
    have hperF : ∀ (w : GridArray d K), w.shape = s → w.grid = c.array.grid → ∀ (k : ℤ),
        (periodicFluxBC d K).shift w k a = .ok ⟨⟨w.shape, fun i => w.data (rollIdx w.shape a k i)⟩,
          Function.update w.offset a (w.offset a + k), w.grid⟩ := by
      intro w h1 h2 k
      have hw : (⟨w, periodicFluxBC d K⟩ : GridVariable d K).Periodic := hc.mk' (fun b => (hc.1 b).symm) h1 h2
      exact hw.shift k a
    unfold vanLeerCorrection
    rw [hvo, p2, hus, Except.bind_ok, hoff, p3, hcc, Except.bind_ok, hper _ (by rfl) (by rfl), Except.bind_ok, hper _ (by rfl) (by rfl),
      Except.bind_ok, hper _ (by rfl) (by rfl), Except.bind_ok]
    dsimp only
    rw [show uniqueOr .type (fun s : Fin d → ℕ => s) [(v a).array.shape, s, s, s, s] = .ok s from
      uniqueOr_eq_ok.2 ⟨by simp, by simp [(hv a).2.2.1, hs]⟩, Except.bind_ok]
    have ht : upperFace c a a - Function.update (v a).array.offset a ((v a).array.offset a + ((-1 : ℤ) : ℚ)) a = 1 - 0 := by
      simp [upperFace, hoff, hvo]; norm_num
    rw [ht, p4, hperF _ (by exact (hv a).2.2.1) (by exact (hv a).2.2.2.1)]
    refine ⟨_, rfl, (hv a).2.2.1, (hv a).2.2.2.1, by simp [hvo], fun i hi => ?_⟩
    dsimp only
    have hvs : (v a).array.shape = s := (hv a).2.2.1
    rw [hvs]
    have hi1 := rollIdx_inR hi a 1
    simp only [rollIdx_zero hi1, rollIdx_zero hi, rollIdx_add, rollIdx_zero (rollIdx_inR hi1 a 1),
      rollIdx_zero (rollIdx_inR hi1 a (-1)), rollIdx_zero (rollIdx_inR hi1 a (-2)),
      rollIdx_zero (rollIdx_inR hi a _)]
    norm_num [rollIdx_zero hi]
  choose corr hcorr q1 q2 q3 q4 using hcorr
  set F : Fin d → GridArray d K := fun a => ⟨⟨s, fun i => (up a).data i + (corr a).data i⟩, (v a).array.offset, c.array.grid⟩
    with hF
  have hFper : ∀ a, (⟨F a, periodicFluxBC d K⟩ : GridVariable d K).Periodic := fun a =>
    hc.mk' (fun b => (hc.1 b).symm) rfl rfl
  set R : GridArray d K := ⟨⟨s, fun i => -∑ a, ((F a).data i - (F a).data (rollIdx s a (-1) i)) / c.array.grid.step a⟩,
    c.array.offset, c.array.grid⟩ with hR
  obtain ⟨r, hr, r1, r2, r3, r4⟩ := fold_shift_zero hc (List.finRange d)
    (fun ax => -pyInt (Int.fract (c.array.offset ax) - c.array.offset ax)) (fun a => by rw [hoff, p1]; rfl) R rfl rfl
  have hoffF : ∀ a, (gmap (fun x => -x) R).offset = Function.update (F a).offset a ((F a).offset a - 1 / 2) := by
    intro a
    show c.array.offset = Function.update (v a).array.offset a ((v a).array.offset a - 1 / 2)
    rw [(hv a).2.2.2.2]; simp
  have hdir : advectVanLeer lastAxis c v dt mode = .ok r := by
    unfold advectVanLeer vanLeerLeft
    rw [hcl, Except.bind_ok, seqFin_ok _ v (fun a => linear_skip _ _ (fun b => by
      rw [hcv, (hv a).2.2.2.2]; rfl)), Except.bind_ok,
      seqFin_ok _ (fun _ => periodicFluxBC d K) (fun a => by
        rw [advectionFluxBC_periodic _ _ _ (hv a).1.1, if_pos (hv a).2.1]), Except.bind_ok,
      seqFin_ok _ up hupwind, Except.bind_ok,
      seqFin_ok _ F (fun a => by
        rw [hcv, hcorr a, Except.bind_ok, gmap2_ok (u := up a) (v := corr a) (q1 a).symm (q3 a).symm (q2 a).symm]), Except.bind_ok,
      seqFin_ok _ (fun a => (⟨F a, periodicFluxBC d K⟩ : GridVariable d K))
        (fun a => imposeBC_periodic _ _ (by intro _; rfl) (by exact fun b => (hc.2 b).1)), Except.bind_ok,
      (divergence_periodic hFper (r := gmap (fun x => -x) R)).2 ⟨hd, fun a => ⟨rfl, (hoffF a).symm, rfl⟩, by funext i; simp [gmap, NArr.map, hR, hF]⟩, Except.bind_ok]
    have : gmap (fun x => -x) (gmap (fun x => -x) R) = R := by
      refine GridArray.ext' rfl ?_ rfl rfl
      funext i; simp [gmap, NArr.map]
    rw [this]
    exact hr
  -- equal face fluxes
  have hflux : ∀ a i, InR s i → (F a).data i = ((if 0 < (v a).array.data i then c.array.data (rollIdx s a 0 i)
          else c.array.data (rollIdx s a 1 i)) -
        ((if 0 < (v a).array.data i then c.array.data (rollIdx s a 0 i)
          else c.array.data (rollIdx s a 1 i)) - (if 0 < (v a).array.data i then
          c.array.data (rollIdx s a 0 i) + 1 / 2 * (1 - dt / c.array.grid.step a * (v a).array.data i) *
            (c.array.data (rollIdx s a 1 i) - c.array.data (rollIdx s a 0 i))
        else c.array.data (rollIdx s a 1 i) - 1 / 2 * (1 + dt / c.array.grid.step a * (v a).array.data i) *
            (c.array.data (rollIdx s a 1 i) - c.array.data (rollIdx s a 0 i)))) *
        (if 0 < (v a).array.data i then
          vanLeer (safeDiv (c.array.data i - c.array.data (rollIdx s a (-1) i))
            (c.array.data (rollIdx s a 1 i) - c.array.data i))
         else vanLeer (safeDiv (c.array.data (rollIdx s a 2 i) - c.array.data (rollIdx s a 1 i))
            (c.array.data (rollIdx s a 1 i) - c.array.data i)))) * (v a).array.data i := by
    intro a i hi
    have e1 := cd i hi
    have e2 := cd _ (rollIdx_inR hi a 1)
    simp only [hF, hup, q4 a i hi, e1, e2, rollIdx_zero hi]
    rw [vanLeerSlope_eq]
    by_cases hu : 0 < (v a).array.data i
    · simp only [hu, if_true, abs_of_pos hu]; ring
    · simp only [hu, if_false, abs_of_nonpos (not_lt.1 hu)]; ring
  refine ⟨r, _, hdir, hlim, r3, r2, r1, fun i hi => ?_, ?_⟩
  · have hi' : InR s i := by have := r1; rw [this] at hi; exact hi
    rw [r4 i hi', hR]
    dsimp only
    refine congrArg Neg.neg (Finset.sum_congr rfl fun a _ => ?_)
    rw [hflux a i hi', hflux a _ (rollIdx_inR hi' a (-1))]
  · unfold NArr.sum
    have : r.shape = s := r1
    rw [this, Finset.sum_congr rfl fun i hi => r4 i (mem_box.1 hi)]
    simp only [hR]
    rw [Finset.sum_neg_distrib, Finset.sum_comm, neg_eq_zero]
    refine Finset.sum_eq_zero fun a _ => ?_
    rw [← Finset.sum_div, Finset.sum_sub_distrib, sum_roll s a (-1) (fun i => (F a).data i), sub_self, zero_div]

section examples
open Fixtures
example : (∀ a, pu34.array.offset a = 1 / 2) ∧ pu34.Periodic ∧ StaggeredPeriodic pu34 pv34 :=
  ⟨fun _ => rfl, pu34_periodic, pv34_staggered⟩
end examples

end JaxCfd
