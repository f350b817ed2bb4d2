import Verif.Model.Advection
import Verif.Lemmas.Interp
import Verif.Lemmas.Impose

set_option linter.unusedSectionVars false

namespace JaxCfd
variable {d : ℕ} {K : Type}

section
variable [Field K] [HasNan K]

/-- `impose_bc` of a periodic condition does nothing to an array of the size of the grid. -/
theorem imposeBC_periodic (bc : BC d K) (u : GridArray d K) (h : ∀ a, bc.types a = (.periodic, .periodic))
    (hs : ∀ a, u.shape a = u.grid.shape a) : bc.imposeBC u = .ok ⟨u, bc⟩ := by
  have hal : ∀ a, bc.isAligned u a = .ok () := by
    intro a
    unfold BC.isAligned
    simp [h a, hs a]
  have h1 : ∀ l : List (Fin d), l.foldlM (fun u a => bc.trimBoundaryAxis u a) u = .ok u := by
    intro l
    induction l with
    | nil => rfl
    | cons a l ih =>
      have : bc.trimBoundaryAxis u a = .ok u := by
        unfold BC.trimBoundaryAxis
        rw [hal a, Except.bind_ok, BC.trimPadding_periodic bc u a .both (h a) (hs a)]
        rfl
      rw [List.foldlM_cons, this, Except.bind_ok, ih]
  have h2 : ∀ l : List (Fin d), l.foldlM (bc.padImposeAxis u.offset .extend) u = .ok u := by
    intro l
    induction l with
    | nil => rfl
    | cons a l ih =>
      have : bc.padImposeAxis u.offset .extend u a = .ok u := by
        unfold BC.padImposeAxis
        rw [hal a, Except.bind_ok, if_neg (by rw [h a]; rintro ⟨hh, -⟩; cases hh)]
        rfl
      rw [List.foldlM_cons, this, Except.bind_ok, ih]
  unfold BC.imposeBC BC.trimBoundary
  rw [h1, Except.bind_ok]
  unfold BC.padAndImposeBC
  rw [Option.getD_some, h2, Except.bind_ok]
  rfl

variable [DecidableEq K]

/-- The periodic flux boundary condition. -/
abbrev periodicFluxBC (d : ℕ) (K : Type) : BC d K := constantBC (fun _ => (.periodic, .periodic)) (fun _ => (none, none))

theorem advectionFluxBC_periodic (u c : GridVariable d K) (dir : Fin d) (h : ∀ a, u.bc.types a = (.periodic, .periodic)) :
    advectionFluxBC u c dir = if u.bc.cls = .homogeneous then .ok (periodicFluxBC d K) else .error .notImplemented := by
  unfold advectionFluxBC
  by_cases hc : u.bc.cls = .homogeneous
  · rw [if_neg (by simp [hc]), if_pos hc, seqFin_ok _ (fun _ => ((.periodic, .periodic), (none, none))), Except.bind_ok]
    · rfl
    · intro a
      unfold fluxAxis
      rw [h a]; simp
  · rw [if_pos hc, if_neg hc]

/-- The closed form of the advection of aligned periodic variables. -/
theorem advectAlignedAxes_periodic {cs v : Fin d → GridVariable d K} (hc : ∀ a, (cs a).Periodic)
    (hv : ∀ a, (v a).Periodic) {r : GridArray d K} :
    advectAlignedAxes cs v = .ok r ↔ d ≠ 0 ∧ (∀ a, (v a).bc.cls = .homogeneous) ∧
      (∀ a, (cs a).array.shape = r.shape ∧ (v a).array.shape = r.shape ∧ (cs a).array.grid = r.grid ∧
        (v a).array.grid = r.grid ∧ (cs a).array.offset = (v a).array.offset ∧
        Function.update (v a).array.offset a ((v a).array.offset a - 1 / 2) = r.offset) ∧
      r.data = fun i => -∑ a, ((cs a).array.data i * (v a).array.data i -
        (cs a).array.data (rollIdx r.shape a (-1) i) * (v a).array.data (rollIdx r.shape a (-1) i)) / r.grid.step a := by
  unfold advectAlignedAxes
  have key : ∀ a, (cs a).array.shape = (v a).array.shape → (cs a).array.offset = (v a).array.offset →
      (cs a).array.grid = (v a).array.grid →
      (⟨⟨⟨(cs a).array.shape, fun i => (cs a).array.data i * (v a).array.data i⟩, (cs a).array.offset,
        (cs a).array.grid⟩, periodicFluxBC d K⟩ : GridVariable d K).Periodic := by
    intro a _ _ _
    exact (hc a).mk' (fun b => ((hc a).1 b).symm) rfl rfl
  constructor
  · intro h
    obtain ⟨fl, hfl, h⟩ := Except.bind_eq_ok.1 h
    obtain ⟨bcs, hbcs, h⟩ := Except.bind_eq_ok.1 h
    obtain ⟨fx, hfx, h⟩ := Except.bind_eq_ok.1 h
    obtain ⟨dv, hdv, h⟩ := Except.bind_eq_ok.1 h
    rw [seqFin_eq_ok] at hfl hbcs hfx
    have hfl' := fun a => gmap2_eq_ok.1 (hfl a)
    have hcls : ∀ a, (v a).bc.cls = .homogeneous := by
      intro a
      have := hbcs a
      rw [advectionFluxBC_periodic _ _ _ (hv a).1] at this
      by_contra hn
      rw [if_neg hn] at this
      cases this
    have hb : ∀ a, bcs a = periodicFluxBC d K := by
      intro a
      have := hbcs a
      rw [advectionFluxBC_periodic _ _ _ (hv a).1, if_pos (hcls a)] at this
      injection this with this
      exact this.symm
    have hfx' : ∀ a, fx a = ⟨⟨⟨(cs a).array.shape, fun i => (cs a).array.data i * (v a).array.data i⟩, (cs a).array.offset,
        (cs a).array.grid⟩, periodicFluxBC d K⟩ := by
      intro a
      have := hfx a
      rw [hb a, imposeBC_periodic _ _ (fun _ => rfl) (by
        intro b
        rw [(hfl' a).2.2.2]
        exact ((hc a).2 b).1)] at this
      injection this with this
      rw [← this, (hfl' a).2.2.2]
    have hdv' := (divergence_periodic (v := fx) (fun a => by
      rw [hfx' a]; exact key a (hfl' a).1 (hfl' a).2.1 (hfl' a).2.2.1)).1 hdv
    obtain ⟨h0, h1, h2⟩ := hdv'
    injection h with h
    subst h
    have hh : ∀ a, (cs a).array.shape = dv.shape ∧ (cs a).array.grid = dv.grid ∧
        Function.update (cs a).array.offset a ((cs a).array.offset a - 1 / 2) = dv.offset := by
      intro a
      have := h1 a
      rw [hfx' a] at this
      exact ⟨this.1, this.2.2, this.2.1⟩
    refine ⟨h0, hcls, fun a => ⟨(hh a).1, (hfl' a).1.symm.trans (hh a).1, (hh a).2.1, (hfl' a).2.2.1.symm.trans (hh a).2.1,
      (hfl' a).2.1, ?_⟩, ?_⟩
    · have := (hh a).2.2
      rw [(hfl' a).2.1] at this
      exact this
    · funext i
      simp only [gmap, NArr.map, h2, hfx', (hh _).1, (hh _).2.1]
  · rintro ⟨h0, hcls, h1, h2⟩
    rw [seqFin_ok _ (fun a => ⟨⟨(cs a).array.shape, fun i => (cs a).array.data i * (v a).array.data i⟩, (cs a).array.offset,
        (cs a).array.grid⟩) (fun a => gmap2_ok ((h1 a).1.trans (h1 a).2.1.symm) (h1 a).2.2.2.2.1
        ((h1 a).2.2.1.trans (h1 a).2.2.2.1.symm)), Except.bind_ok,
      seqFin_ok _ (fun _ => periodicFluxBC d K) (fun a => by
        rw [advectionFluxBC_periodic _ _ _ (hv a).1, if_pos (hcls a)]), Except.bind_ok,
      seqFin_ok _ (fun a => (⟨⟨⟨(cs a).array.shape, fun i => (cs a).array.data i * (v a).array.data i⟩,
        (cs a).array.offset, (cs a).array.grid⟩, periodicFluxBC d K⟩ : GridVariable d K))
        (fun a => imposeBC_periodic _ _ (by intro _; rfl) (by exact fun b => ((hc a).2 b).1)), Except.bind_ok]
    have := (divergence_periodic (v := fun a => (⟨⟨⟨(cs a).array.shape, fun i => (cs a).array.data i * (v a).array.data i⟩,
        (cs a).array.offset, (cs a).array.grid⟩, periodicFluxBC d K⟩ : GridVariable d K))
        (fun a => key a ((h1 a).1.trans (h1 a).2.1.symm) (h1 a).2.2.2.2.1 ((h1 a).2.2.1.trans (h1 a).2.2.2.1.symm))
        (r := gmap (fun x => -x) r)).2
    rw [this]
    · rw [Except.bind_ok]
      refine congrArg Except.ok (GridArray.ext' rfl ?_ rfl rfl)
      funext i; simp [gmap, NArr.map]
    · refine ⟨h0, fun a => ⟨(h1 a).1, ?_, (h1 a).2.2.1⟩, ?_⟩
      · simp only [(h1 a).2.2.2.2.1]
        exact (h1 a).2.2.2.2.2
      · funext i
        simp only [gmap, NArr.map, h2, neg_neg, (h1 _).1, (h1 _).2.2.1]

theorem advectAligned_ofFn (cs v : Fin d → GridVariable d K) :
    advectAligned (List.ofFn cs) (List.ofFn v) = advectAlignedAxes cs v := by
  unfold advectAligned
  rw [if_neg (by simp), dif_pos ⟨by simp, by simp⟩]
  simp

theorem hasAllPeriodic_of {c : GridVariable d K} (h : ∀ a, c.bc.types a = (.periodic, .periodic)) :
    hasAllPeriodic [c] = true := by
  simp [hasAllPeriodic, isPeriodicBC, h]

theorem controlVolumeOffsets_eq (c : GridVariable d K) (a : Fin d) :
    controlVolumeOffsets c.array a = upperFace c a := by
  funext b
  unfold controlVolumeOffsets upperFace
  by_cases h : b = a
  · subst h; simp
  · simp [h]

/-- Advection by a staggered velocity, for any interpolation of the scalar to the faces. -/
theorem advectGeneral_staggered {c : GridVariable d K} (hd : d ≠ 0) (h : c.Periodic) {v : Fin d → GridVariable d K}
    (hv : StaggeredPeriodic c v) (cFn : InterpFn d K) (dt : K) (C : Fin d → GridVariable d K)
    (hC : ∀ a, cFn c (upperFace c a) v dt = .ok (C a))
    (hCp : ∀ a, (C a).Periodic ∧ (C a).array.shape = c.array.shape ∧ (C a).array.grid = c.array.grid ∧
      (C a).array.offset = upperFace c a) :
    advectGeneral linearFn cFn c v dt = .ok ⟨⟨c.array.shape, fun i =>
      -∑ a, ((C a).array.data i * (v a).array.data i - (C a).array.data (rollIdx c.array.shape a (-1) i) *
        (v a).array.data (rollIdx c.array.shape a (-1) i)) / c.array.grid.step a⟩, c.array.offset, c.array.grid⟩ := by
  unfold advectGeneral
  rw [if_pos (hasAllPeriodic_of h.1), seqFin_ok _ v (fun a => by
      unfold linearFn
      rw [controlVolumeOffsets_eq]
      exact linear_skip _ _ (fun b => by rw [(hv a).2.2.2.2]; rfl)), Except.bind_ok,
    seqFin_ok _ C (fun a => by rw [controlVolumeOffsets_eq]; exact hC a), Except.bind_ok, advectAligned_ofFn]
  refine (advectAlignedAxes_periodic (fun a => (hCp a).1) (fun a => (hv a).1)).2 ⟨hd, fun a => (hv a).2.1, fun a =>
    ⟨(hCp a).2.1, (hv a).2.2.1, (hCp a).2.2.1, (hv a).2.2.2.1, (hCp a).2.2.2.trans (hv a).2.2.2.2.symm, ?_⟩, rfl⟩
  rw [(hv a).2.2.2.2]
  simp

/-- The divergence of a staggered velocity. -/
theorem divergence_staggered {c : GridVariable d K} (hd : d ≠ 0) {v : Fin d → GridVariable d K}
    (hv : StaggeredPeriodic c v) :
    divergence (List.ofFn v) = .ok ⟨⟨c.array.shape, fun i =>
      ∑ a, ((v a).array.data i - (v a).array.data (rollIdx c.array.shape a (-1) i)) / c.array.grid.step a⟩,
      c.array.offset, c.array.grid⟩ := by
  refine (divergence_periodic fun a => (hv a).1).2 ⟨hd, fun a => ⟨(hv a).2.2.1, ?_, (hv a).2.2.2.1⟩, ?_⟩
  · rw [(hv a).2.2.2.2]; simp
  · funext i
    simp only [(hv _).2.2.1, (hv _).2.2.2.1]

end

end JaxCfd
