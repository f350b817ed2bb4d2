import Verif.Props.TranslationAdvection
import Verif.Props.SemiLagrangian

/-!
# C68: semi-Lagrangian advection commutes with translations of periodic fields
-/

namespace JaxCfd
variable {d : ℕ} {K : Type} {t : Idx d}
variable [Field K] [LinearOrder K] [HasNan K] [IsStrictOrderedRing K] [FloorRing K]

/-- **C68** A semi-Lagrangian step of translated fields is the translated step: the departure points move with the grid points although they are computed from absolute coordinates. -/
theorem C68_semi_lagrangian {c c' : GridVariable d K} {v v' : Fin d → GridVariable d K} (hc : c.Translated t c') (hv : ∀ a, (v a).Translated t (v' a))
    (hstep : ∀ a, c.array.grid.step a ≠ 0) (dt : K) :
    RelE (GridVariable.Translated t) (advectSemilagrangian c v dt) (advectSemilagrangian c' v' dt) := by
  unfold advectSemilagrangian
  have eg : consistentGrid (c'.array :: List.ofFn fun a => (v' a).array) = consistentGrid (c.array :: List.ofFn fun a => (v a).array) :=
    uniqueOr_congr (.cons hc.grid (forall₂_ofFn fun a => (hv a).grid))
  rw [eg, hc.2.2.1, hc.grid, hc.1, hasAllPeriodic_translated hc]
  refine RelE.bind (R := fun g g' => g' = g ∧ consistentGrid (c.array :: List.ofFn fun a => (v a).array) = .ok g) (RelE.same _ fun g hg => ⟨rfl, hg⟩) fun g g' hg => ?_
  obtain ⟨rfl, hg⟩ := hg
  have hgc : c.array.grid = g' := (uniqueOr_eq_ok.1 hg).2 c.array (by simp)
  have hgv : ∀ a, (v a).array.grid = g' := fun a => (uniqueOr_eq_ok.1 hg).2 (v a).array (List.mem_cons_of_mem _ (List.mem_ofFn.2 ⟨a, rfl⟩))
  by_cases h0 : ∃ a, (g'.domain a).1 ≠ 0
  · rw [if_pos h0, if_pos h0]; exact RelE.error _
  rw [if_neg h0, if_neg h0]
  obtain ⟨m, hm, hmv⟩ := mesh_value g' c.array.offset
  rw [hm, Except.bind_ok, Except.bind_ok]
  have hpos : ∀ a, 0 < g'.shape a := fun a => by have := hc.2.2.2.2.2.2.1 a; rw [hc.2.2.2.2.1, hgc] at this; exact this
  refine RelE.bind (RelE.seqFin (R := fun a (x y : NArr d K) => ∀ i : Idx d, InR g'.shape i →
      y.data i / g'.step a - (c.array.offset a : K) = x.data (moved g'.shape t i) / g'.step a - (c.array.offset a : K) + ((i a - moved g'.shape t i a : ℤ) : K)) fun a => ?_) fun x y hxy => ?_
  · refine RelE.bind (linear_translated (hv a) (hgv a) _) fun u u' huu => ?_
    obtain ⟨hu, hug⟩ := huu
    rw [hu.2.2.2.2.2.1]
    split_ifs with hs
    · exact RelE.error _
    · refine RelE.ok fun i hi => ?_
      have hi' := moved_inR hpos t i
      have hst : u.array.shape = g'.shape := hu.2.2.2.2.1.trans (by rw [hug])
      unfold NArr.map2
      dsimp only
      rw [(hmv a).2 i hi, (hmv a).2 _ hi', hu.2.2.2.2.2.2.2 i (by rw [hst]; exact hi), show u.array.toNArr.shape = g'.shape from hst]
      have : g'.step a ≠ 0 := by rw [← hgc]; exact hstep a
      push_cast
      field_simp
      ring
  · split_ifs
    · refine RelE.ok ⟨rfl, hc.2.1, rfl, rfl, by exact hgc ▸ rfl, rfl, hpos, fun i hi => ?_⟩
      have hcs : c.array.shape = g'.shape := hc.2.2.2.2.1.trans (by rw [hgc])
      unfold mapCoordinatesWrap
      dsimp only
      refine Finset.sum_congr rfl fun b _ => ?_
      simp only [fun a => hxy a i hi, Int.floor_add_intCast, Int.cast_add, add_sub_add_right_eq_sub]
      congr 1
      have hin : InR g'.shape fun a => (⌊(x a).data (moved g'.shape t i) / g'.step a - (c.array.offset a : K)⌋ + (i a - moved g'.shape t i a) + (if b a = true then 1 else 0)) % (g'.shape a : ℤ) :=
        fun a => ⟨Int.emod_nonneg _ (by have := hpos a; omega), Int.emod_lt_of_pos _ (by have := hpos a; omega)⟩
      rw [hc.2.2.2.2.2.1, hcs, hc.2.2.2.2.2.2.2 _ (by rw [hcs]; exact hin), hcs]
      congr 1
      funext a
      unfold moved
      dsimp only
      rw [Int.emod_add_emod]
      have := Int.emod_add_mul_ediv (i a + t a) (g'.shape a)
      refine Int.emod_eq_emod_iff_emod_sub_eq_zero.2 (Int.emod_eq_zero_of_dvd ⟨(i a + t a) / (g'.shape a : ℤ), ?_⟩)
      linarith
    · exact RelE.error _

end JaxCfd
