import Verif.Props.Translation

/-!
# C68: advection commutes with translations of periodic fields
-/

namespace JaxCfd
variable {d : ℕ} {K : Type} {t : Idx d}

section
variable [Field K] [LinearOrder K] [HasNan K]

theorem gmap2_translated {a b a' b' : GridArray d K} (h : a.Translated t b) (h' : a'.Translated t b') (f : K → K → K) :
    RelE (fun x y => GridArray.Translated t x y ∧ x.grid = a.grid ∧ x.grid = a'.grid) (gmap2 f a a') (gmap2 f b b') := by
  have h1 := h.gmap2 h' f
  refine ⟨h1.1, fun r hr => ?_⟩
  obtain ⟨s, hs, hrs⟩ := h1.2 r hr
  obtain ⟨-, -, e, er⟩ := gmap2_eq_ok.1 hr
  refine ⟨s, hs, hrs, ?_⟩
  rw [er]
  exact ⟨rfl, e⟩

theorem laxWendroffAlong_translated {c c' u v : GridVariable d K} (hc : c.Translated t c') (h : u.Translated t v) (o : Fin d → ℚ) (dt : K) (ax : Fin d) :
    RelE (GridVariable.Translated t) (laxWendroffAlong c o u dt ax) (laxWendroffAlong c' o v dt ax) := by
  unfold laxWendroffAlong
  dsimp only
  have eg : consistentGrid [c'.array, v.array] = consistentGrid [c.array, u.array] := uniqueOr_congr (.cons hc.grid (.cons h.grid .nil))
  rw [hc.2.2.1, h.2.2.1, eg]
  refine RelE.bind (R := fun g g' => g' = g ∧ consistentGrid [c.array, u.array] = .ok g) (RelE.same _ fun g hg => ⟨rfl, hg⟩) fun g g' hg => ?_
  obtain ⟨rfl, hg⟩ := hg
  have e1 : c.array.grid = g' := (uniqueOr_eq_ok.1 hg).2 c.array (by simp)
  have e2 : u.array.grid = g' := (uniqueOr_eq_ok.1 hg).2 u.array (by simp)
  have s1 : c.array.shape = g'.shape := by rw [← e1]; exact hc.2.2.2.2.1
  have s2 : u.array.shape = g'.shape := by rw [← e2]; exact h.2.2.2.2.1
  refine RelE.bind (shift_translated hc _ _ _) fun f f' hf => RelE.bind (shift_translated hc _ _ _) fun e e' he => ?_
  have sf : f.shape = g'.shape := hf.2.2.trans s1
  have se : e.shape = g'.shape := he.2.2.trans s1
  have hd := he.1.2.2.2.map2 hf.1.2.2.2 (sf.trans se.symm) (fun x y : K => x - y)
  have hu := h.2.2.2.2.2.map fun x => dt / g'.step ax * x
  refine RelE.bind (jnpWhere_translated (h.2.2.2.2.2.map _)
    (hf.1.2.2.2.map2 (hu.map2 hd (se.trans s2.symm) fun q x => 1 / 2 * (1 - q) * x) (s2.trans sf.symm) fun x y => x + y)
    (he.1.2.2.2.map2 (hu.map2 hd (se.trans s2.symm) fun q x => 1 / 2 * (1 + q) * x) (s2.trans se.symm) fun x y => x - y)) fun x x' hx => RelE.ok ⟨rfl, fun _ => rfl, rfl, rfl, ?_, hx.1⟩
  show x.shape = g'.shape
  rw [hx.2]
  exact sf

/-- **C68** The interpolation functions commute with translations: linear, upwind and Lax-Wendroff interpolation. -/
theorem C68_interpolation : TranslationEquivariant (d := d) (K := K) linearFn ∧ TranslationEquivariant (d := d) (K := K) upwindFn ∧ TranslationEquivariant (d := d) (K := K) laxWendroff := by
  refine ⟨fun t c c' o v v' dt hc hv => C68_linear hc o, fun t c c' o v v' dt hc hv => ?_, fun t c c' o v v' dt hc hv => ?_⟩
  · unfold upwindFn upwind
    rw [hc.2.2.1]
    split_ifs
    · exact RelE.ok hc
    · split
      · exact upwindAlong_translated hc (hv _) o _
      · exact RelE.error _
  · unfold laxWendroff
    rw [hc.2.2.1]
    split_ifs
    · exact RelE.ok hc
    · split
      · exact laxWendroffAlong_translated hc (hv _) o dt _
      · exact RelE.error _

/-- **C68** A flux limiter keeps the property, whatever the limiter. -/
theorem C68_limited (fn : InterpFn d K) (hfn : TranslationEquivariant fn) (limiter : K → K) : TranslationEquivariant (tvdInterpolation fn limiter) := by
  intro t c c' o v v' dt hc hv
  refine RelE.foldlM _ (fun ax _ a b hab => ?_) hc
  unfold tvdAxis
  rw [hab.2.2.1]
  split_ifs
  · exact RelE.error _
  · unfold tvdAxisBody
    rw [hab.1, hab.2.2.2.1, hab.2.2.1]
    refine RelE.bind (C68_interpolation.2.1 t a b o v v' dt hab hv) fun low low' hl => RelE.bind (hfn t a b o v v' dt hab hv) fun hi hi' hh =>
      RelE.bind (shift_translated hab _ _ _) fun l l' h1 => RelE.bind (shift_translated hab _ _ _) fun r r' h2 => RelE.bind (shift_translated hab _ _ _) fun n n' h3 => ?_
    dsimp only
    have hst := h2.1.2.2.2.map2 hab.2.2.2.2.2 h2.2.2.symm (fun x y : K => x - y)
    have hp := (hab.2.2.2.2.2.map2 h1.1.2.2.2 h1.2.2 (fun x y : K => x - y)).map2 hst h2.2.2 safeDiv
    have hn := (h3.1.2.2.2.map2 h2.1.2.2.2 (h2.2.2.trans h3.2.2.symm) (fun x y : K => x - y)).map2 hst (h2.2.2.trans h3.2.2.symm) safeDiv
    refine RelE.bind (jnpWhere_translated ((hv ax).2.2.2.2.2.map _) (hp.map limiter) (hn.map limiter)) fun φ φ' hφ => ?_
    rw [(hv ax).2.2.1, (hv ax).grid, hl.2.2.1]
    refine RelE.bind (RelE.eq rfl) fun oo oo' ho => RelE.bind (R := fun g g' => g' = g ∧ uniqueOr .grid (fun g : Grid d K => g) [(v ax).array.grid, a.array.grid, a.array.grid] = .ok g)
      (RelE.same _ fun g hg => ⟨rfl, hg⟩) fun g g' hg => ?_
    subst ho
    obtain ⟨rfl, hg⟩ := hg
    have e1 : a.array.grid = g' := (uniqueOr_eq_ok.1 hg).2 _ (by simp)
    refine RelE.bind (hl.2.2.gmap2 hh.2.2 _) fun df df' hdf => RelE.bind (gmap2_translated hdf (a' := ⟨φ, oo', g'⟩) (b' := ⟨φ', oo', g'⟩) ⟨rfl, rfl, ?_, hφ.1⟩ _) fun co co' hco =>
      RelE.bind (gmap2_translated hl.2.2 hco.1 _) fun x y hxy => RelE.ok ⟨rfl, hab.2.1, rfl, rfl, ?_, hxy.1.2.2.2⟩
    · show φ.shape = g'.shape
      rw [hφ.2, ← e1]
      exact hab.2.2.2.2.1
    · show x.shape = a.array.grid.shape
      rw [hxy.1.2.2.1, hxy.2.2, hco.2.2, e1]
  · exact RelE.ok hab

theorem advectionFluxBC_translated {u v c c' : GridVariable d K} (h : u.Translated t v) (hc : c.Translated t c') (dir : Fin d) :
    RelE (fun b b' => b' = b ∧ ∀ a, b.types a = (.periodic, .periodic)) (advectionFluxBC u c dir) (advectionFluxBC v c' dir) := by
  rw [advectionFluxBC_periodic u c dir h.2.1, advectionFluxBC_periodic v c' dir (by rw [h.1]; exact h.2.1), h.1]
  exact RelE.same _ fun b hb => by
    split_ifs at hb
    cases hb
    exact ⟨rfl, fun _ => rfl⟩

theorem advectAlignedAxes_translated {cs v cs' v' : Fin d → GridVariable d K} (hc : ∀ a, (cs a).Translated t (cs' a)) (hv : ∀ a, (v a).Translated t (v' a)) :
    RelE (GridArray.Translated t) (advectAlignedAxes cs v) (advectAlignedAxes cs' v') := by
  unfold advectAlignedAxes
  refine RelE.bind (RelE.seqFin (R := fun _ => GridArray.Translated t) fun a => (hc a).2.2.gmap2 (hv a).2.2 _) fun fl fl' hfl =>
    RelE.bind (RelE.seqFin (R := fun _ b b' => b' = b ∧ ∀ a, b.types a = (.periodic, .periodic)) fun a => advectionFluxBC_translated (hv a) (hc a) a) fun b b' hb =>
    RelE.bind (RelE.seqFin (R := fun _ => GridVariable.Translated t) fun a => ?_) fun x y hxy => RelE.bind (C68_divergence (forall₂_ofFn hxy)) fun r s hrs => RelE.ok (hrs.gmap _)
  rw [(hb a).1]
  exact (hfl a).imposeBC _ (hb a).2

theorem hasAllPeriodic_translated {c c' : GridVariable d K} (hc : c.Translated t c') : hasAllPeriodic [c'] = hasAllPeriodic [c] := by
  unfold hasAllPeriodic isPeriodicBC
  simp [hc.1]

/-- **C68** `advect_general` with interpolation functions that commute with translations: translating the scalar and the velocity translates the tendency. -/
theorem C68_advect_general (uFn cFn : InterpFn d K) (hu : TranslationEquivariant uFn) (hcf : TranslationEquivariant cFn) {c c' : GridVariable d K} {v v' : Fin d → GridVariable d K}
    (hc : c.Translated t c') (hv : ∀ a, (v a).Translated t (v' a)) (dt : K) : RelE (GridArray.Translated t) (advectGeneral uFn cFn c v dt) (advectGeneral uFn cFn c' v' dt) := by
  unfold advectGeneral
  rw [hasAllPeriodic_translated hc]
  have ho : ∀ a, controlVolumeOffsets c'.array a = controlVolumeOffsets c.array a := fun a => by
    unfold controlVolumeOffsets
    rw [hc.2.2.1]
  simp only [ho]
  split_ifs
  · refine RelE.bind (RelE.seqFin (R := fun _ => GridVariable.Translated t) fun a => hu t _ _ _ _ _ dt (hv a) hv) fun av av' hav =>
      RelE.bind (RelE.seqFin (R := fun _ => GridVariable.Translated t) fun a => hcf t _ _ _ _ _ dt hc hav) fun ac ac' hac => ?_
    rw [advectAligned_ofFn, advectAligned_ofFn]
    exact advectAlignedAxes_translated hac hav
  · exact RelE.error _

/-- **C68** The advection schemes: linear, upwind and van Leer with limiters. -/
theorem C68_advection {c c' : GridVariable d K} {v v' : Fin d → GridVariable d K} (hc : c.Translated t c') (hv : ∀ a, (v a).Translated t (v' a)) (dt : K) :
    RelE (GridArray.Translated t) (advectLinear c v dt) (advectLinear c' v' dt) ∧ RelE (GridArray.Translated t) (advectUpwind c v dt) (advectUpwind c' v' dt) ∧
      RelE (GridArray.Translated t) (advectVanLeerUsingLimiters c v dt) (advectVanLeerUsingLimiters c' v' dt) :=
  ⟨C68_advect_general _ _ C68_interpolation.1 C68_interpolation.1 hc hv dt, C68_advect_general _ _ C68_interpolation.1 C68_interpolation.2.1 hc hv dt,
    C68_advect_general _ _ C68_interpolation.1 (C68_limited _ C68_interpolation.2.2 _) hc hv dt⟩

/-- **C68** `convect_linear` of a translated velocity field. -/
theorem C68_convect_linear {v v' : Fin d → GridVariable d K} (hv : ∀ a, (v a).Translated t (v' a)) :
    RelE (fun r s => ∀ a, GridArray.Translated t (r a) (s a)) (convectLinear v) (convectLinear v') := by
  unfold convectLinear
  have hal : RelE (fun r s => ∀ i j, GridVariable.Translated t (r i j) (s i j)) (alignVelocities v) (alignVelocities v') := by
    unfold alignVelocities
    refine RelE.bind (RelE.eq (uniqueOr_congr (forall₂_ofFn fun a => (hv a).grid.symm))) fun _ _ _ => ?_
    refine RelE.seqFin (R := fun _ (r s : Fin d → GridVariable d K) => ∀ j, GridVariable.Translated t (r j) (s j)) fun i => RelE.seqFin (R := fun _ => GridVariable.Translated t) fun j => ?_
    have ho : controlVolumeOffsets (v' i).array j = controlVolumeOffsets (v i).array j := by
      unfold controlVolumeOffsets
      rw [(hv i).2.2.1]
    rw [ho]
    exact C68_linear (hv i) _
  refine RelE.bind hal fun av av' hav => ?_
  have hfl : ∀ i j, RelE (GridVariable.Translated t) (fluxEntry av i j) (fluxEntry av' i j) := by
    intro i j
    unfold fluxEntry
    refine RelE.bind (advectionFluxBC_translated (hav j i) (hav i j) j) fun b b' hb => RelE.bind ((hav i j).2.2.gmap2 (hav j i).2.2 _) fun x y hxy => ?_
    rw [hb.1]
    exact hxy.imposeBC _ hb.2
  refine RelE.bind (R := fun r s => ∀ i j, GridVariable.Translated t (r i j) (s i j)) ?_ fun fl fl' hf =>
    RelE.seqFin (R := fun _ => GridArray.Translated t) fun i => RelE.bind (C68_divergence (forall₂_ofFn (hf i))) fun r s hrs => RelE.ok (hrs.gmap _)
  unfold velocitiesToFlux
  refine RelE.seqFin (R := fun _ (r s : Fin d → GridVariable d K) => ∀ j, GridVariable.Translated t (r j) (s j)) fun i => RelE.seqFin (R := fun _ => GridVariable.Translated t) fun j => ?_
  split_ifs
  · exact hfl i j
  · exact hfl j i

theorem linear_translated {u v : GridVariable d K} (h : u.Translated t v) {g : Grid d K} (hg : u.array.grid = g) (o : Fin d → ℚ) :
    RelE (fun a b => GridVariable.Translated t a b ∧ a.array.grid = g) (linear u o) (linear v o) := by
  have h1 := C68_linear h o
  refine ⟨h1.1, fun r hr => ?_⟩
  obtain ⟨s, hs, hrs⟩ := h1.2 r hr
  exact ⟨s, hs, hrs, (C23_offset_and_bc u o r hr).2.1.trans hg⟩

/-- **C68** `advect_van_leer` (scalar and velocity on one grid). -/
theorem C68_van_leer (lastAxis : Fin d) (mode : Padding) {c c' : GridVariable d K} {v v' : Fin d → GridVariable d K} (hc : c.Translated t c') (hv : ∀ a, (v a).Translated t (v' a))
    (hg : ∀ a, (v a).array.grid = c.array.grid) (dt : K) :
    RelE (GridArray.Translated t) (advectVanLeer lastAxis c v dt mode) (advectVanLeer lastAxis c' v' dt mode) := by
  unfold advectVanLeer
  have hleft : RelE (fun a b => GridVariable.Translated t a b ∧ a.array.grid = c.array.grid) (vanLeerLeft c) (vanLeerLeft c') := by
    unfold vanLeerLeft
    rw [hc.2.2.1, hc.1]
    refine RelE.foldlM (R := fun a b => GridVariable.Translated t a b ∧ a.array.grid = c.array.grid) _ (fun ax _ a b hab => ?_) ⟨hc, rfl⟩
    refine RelE.bind (shift_translated hab.1 _ _ _) fun x y hxy => ?_
    have h1 := hxy.1.imposeBC c.bc hc.2.1
    rw [imposeBC_periodic _ _ hc.2.1 fun a => by rw [hxy.1.2.2.1]] at h1 ⊢
    exact ⟨h1.1, fun r hr => by
      obtain ⟨s, hs, hrs⟩ := h1.2 r hr
      cases hr
      exact ⟨s, hs, hrs, hxy.2.1.trans hab.2⟩⟩
  refine RelE.bind hleft fun cl cl' hcl' => ?_
  obtain ⟨hcl, hclg⟩ := hcl'
  have ho : ∀ a, controlVolumeOffsets cl'.array a = controlVolumeOffsets cl.array a := fun a => by
    unfold controlVolumeOffsets
    rw [hcl.2.2.1]
  simp only [ho, hc.1, hc.2.2.1]
  refine RelE.bind (RelE.seqFin (R := fun _ a b => GridVariable.Translated t a b ∧ a.array.grid = c.array.grid) fun a => linear_translated (hv a) (hg a) _) fun av av' hav' =>
    RelE.bind (RelE.seqFin (R := fun _ b b' => b' = b ∧ ∀ a, b.types a = (.periodic, .periodic)) fun a => advectionFluxBC_translated (hv a) hc a) fun b b' hb =>
    RelE.bind (RelE.seqFin (R := fun _ => GridArray.Translated t) fun a => ?_) fun up up' hup =>
    RelE.bind (RelE.seqFin (R := fun _ => GridArray.Translated t) fun a => RelE.bind (R := GridArray.Translated t) ?_ fun co co' hco => (hup a).gmap2 hco _) fun fl fl' hfl =>
    RelE.bind (RelE.seqFin (R := fun _ => GridVariable.Translated t) fun a => ?_) fun x y hxy => RelE.bind (C68_divergence (forall₂_ofFn hxy)) fun r s hrs =>
      RelE.foldlM _ (fun ax _ a b hab => hab.shift _ hc.2.1 _ _ _) (hrs.gmap _)
  · obtain ⟨hav, havg⟩ := hav' a
    unfold vanLeerUpwindFlux
    refine RelE.bind (shift_translated hcl _ _ _) fun r r' hr => ?_
    have hs : cl.array.shape = (av a).array.shape := by rw [hcl.2.2.2.2.1, hclg, hav.2.2.2.2.1, havg]
    rw [hav.2.2.1, hav.grid]
    refine RelE.bind (jnpWhere_translated (hav.2.2.2.2.2.map _) (hav.2.2.2.2.2.map2 hcl.2.2.2.2.2 hs _) (hav.2.2.2.2.2.map2 hr.1.2.2.2 (hr.2.2.trans hs) _)) fun x y hxy => RelE.ok ⟨rfl, rfl, ?_, hxy.1⟩
    exact hxy.2.trans hav.2.2.2.2.1
  · have hav := fun a => (hav' a).1
    unfold vanLeerCorrection
    rw [(hav a).2.2.1, hc.1, hc.2.2.1, hc.grid, (hb a).1]
    refine RelE.bind ((hav a).shift _ _ _) fun us us' hus => RelE.bind (hc.shift _ _ _) fun cc cc' hcc => RelE.bind (hcc.shift _ hc.2.1 _ _ _) fun cr cr' hcr =>
      RelE.bind (hcc.shift _ hc.2.1 _ _ _) fun cle cle' hcle => RelE.bind (hcc.shift _ hc.2.1 _ _ _) fun cll cll' hcll => ?_
    rw [hus.shape, hcc.shape, hcr.shape, hcle.shape, hcll.shape, hus.1, hus.2.1]
    refine RelE.bind (R := fun s s' => s' = s ∧ uniqueOr .type (fun s : Fin d → ℕ => s) [us.shape, cc.shape, cr.shape, cle.shape, cll.shape] = .ok s) (RelE.same _ fun s hs => ⟨rfl, hs⟩) fun s s' hs => ?_
    have h5 := (uniqueOr_eq_ok.1 hs.2).2
    simp only [List.mem_cons, List.not_mem_nil, or_false, forall_eq_or_imp, forall_eq] at h5
    obtain ⟨e1, e2, e3, e4, e5⟩ := h5
    dsimp only
    refine GridArray.Translated.shift (t := t) ?_ _ (hb a).2 _ _ _
    refine ⟨rfl, rfl, by exact hus.2.2.1, rfl, by exact hus.2.2.2.2.1, fun i hi => ?_⟩
    have hi' : InR s i := by rw [← e1]; exact hi
    dsimp only
    rw [hus.2.2.2.2.2 i (by rw [e1]; exact hi'), hcc.2.2.2.2.2 i (by rw [e2]; exact hi'), hcr.2.2.2.2.2 i (by rw [e3]; exact hi'), hcle.2.2.2.2.2 i (by rw [e4]; exact hi'),
      hcll.2.2.2.2.2 i (by rw [e5]; exact hi'), e1, e2, e3, e4, e5]
  · rw [(hb a).1]
    exact (hfl a).imposeBC _ (hb a).2

end
end JaxCfd
