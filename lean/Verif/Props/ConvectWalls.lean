import Verif.Props.TopHat
import Verif.Props.TopHatWalls
import Verif.Props.Interp
import Verif.Model.Equations
import Verif.Lemmas.Equations
import Verif.Lemmas.Boundaries
import Verif.Lemmas.FD
import Verif.Props.WallStep

/-!
# Linear convection refuses walls

`convect_linear` interpolates every velocity component to the faces of its own control volume.  For the component normal to a
wall the last of those faces lies beyond the wall, and `impose_bc` refuses such an array.
-/

namespace JaxCfd
open BC

variable {d : ℕ} {K : Type} [Field K] [HasNan K]

omit [Field K] [HasNan K] in
/-- The state of the trimming loop of `impose_bc`. -/
private theorem trim_step {bc : BC d K} {u r : GridArray d K} {a b : Fin d} {o : Fin d → ℚ}
    (h : bc.trimBoundaryAxis u a = .ok r) (ho : ∀ c : Fin d, 0 < o c ∧ o c ≤ u.grid.shape c) (hN : ∀ c : Fin d, 0 < u.grid.shape c)
    (hu : u.offset = o) (h1 : 1 < o b) (hp : (bc.types b).2 ≠ .periodic) (hs : u.shape b ≤ u.grid.shape b) :
    r.grid = u.grid ∧ r.offset = o ∧ r.shape b ≤ u.shape b ∧ (a = b → r.shape b < u.grid.shape b) := by
  unfold trimBoundaryAxis at h
  obtain ⟨_, -, h⟩ := Except.bind_eq_ok.1 h
  obtain ⟨⟨v, tr⟩, hv, h⟩ := Except.bind_eq_ok.1 h
  dsimp only at h
  have h := Except.ok.inj h
  subst h
  obtain ⟨t1, t2, t3, t4, t5, t6, t7⟩ := trimPadding_spec hv (by rw [hu]; exact (ho a).2) (hN a)
  have key : tr.1 = 0 ∧ (u.shape a ≥ u.grid.shape a → tr.2 = bc.positiveTrim u a .both) := by
    unfold trimPadding at hv
    have hl : bc.trimPaddingLower u a .both = .ok (u, 0) := by
      unfold trimPaddingLower
      have hna : ¬ (u.offset a ≤ 0 ∧ (TrimSide.both = .both ∨ TrimSide.both = .left)) := fun hh => by
        have := (ho a).1
        rw [hu] at hh
        exact absurd hh.1 (not_le.2 this)
      rw [if_neg hna]
    split at hv
    · rw [hl, Except.bind_ok] at hv
      dsimp only at hv
      obtain ⟨w, -, hv⟩ := Except.bind_eq_ok.1 hv
      have hv := Except.ok.inj hv
      exact ⟨by rw [← (Prod.mk.inj hv).2]; simp, fun _ => by rw [← (Prod.mk.inj hv).2]⟩
    · rename_i hlt
      have hv := Except.ok.inj hv
      exact ⟨by rw [← (Prod.mk.inj hv).2], fun hh => absurd hh hlt⟩
  obtain ⟨k1, k2⟩ := key
  refine ⟨t3, ?_, ?_, fun hab => ?_⟩
  · rw [t4, k1, hu]; funext c
    by_cases hc : c = a
    · subst hc; simp
    · rw [Function.update_of_ne hc]
  · rw [t6]
    by_cases hc : b = a
    · subst hc; rw [Function.update_self]; omega
    · rw [Function.update_of_ne hc]
  · subst hab
    by_cases hge : u.shape a ≥ u.grid.shape a
    · have hpos : 0 < tr.2 := by
        rw [k2 hge]
        unfold positiveTrim
        rw [if_pos (Or.inr rfl), if_neg hp]
        dsimp only
        have hge' : (u.grid.shape a : ℚ) ≤ u.shape a := by exact_mod_cast hge
        have hlast : 0 < (u.shape a : ℚ) + u.offset a - 1 - u.grid.shape a := by rw [hu]; linarith
        have hc : 0 < ⌈(u.shape a : ℚ) + u.offset a - 1 - u.grid.shape a⌉ := Int.ceil_pos.2 hlast
        rw [if_pos (by linarith : (u.shape a : ℚ) + u.offset a - 1 ≥ (u.grid.shape a : ℚ))]
        split <;> omega
      omega
    · omega

/-- **C56.** `impose_bc` refuses every array that fills the grid but whose last entry lies beyond a wall (offset greater than one
along an axis that is not periodic), unless some offset is exactly one: it first trims the entries that are not in the interior,
and then rejects the result because interior entries are missing. -/
theorem C56_impose_beyond_wall (bc : BC d K) (p : GridArray d K) (b : Fin d)
    (ho : ∀ c : Fin d, 0 < p.offset c ∧ p.offset c ≤ p.grid.shape c ∧ p.offset c ≠ 1) (h1 : 1 < p.offset b)
    (hp : (bc.types b).2 ≠ .periodic) (hs : p.shape b = p.grid.shape b) (R : GridVariable d K) : bc.imposeBC p ≠ .ok R := by
  intro h
  have hN : ∀ c : Fin d, 0 < p.grid.shape c := fun c => by
    have : (0 : ℚ) < p.grid.shape c := lt_of_lt_of_le (ho c).1 (ho c).2.1
    exact_mod_cast this
  unfold imposeBC at h
  obtain ⟨t, ht, h⟩ := Except.bind_eq_ok.1 h
  unfold trimBoundary at ht
  have hfold : ∀ (l : List (Fin d)) (u t : GridArray d K), l.foldlM (fun u a => bc.trimBoundaryAxis u a) u = .ok t →
      u.grid = p.grid → u.offset = p.offset → u.shape b ≤ p.grid.shape b →
      t.grid = p.grid ∧ t.offset = p.offset ∧ t.shape b ≤ u.shape b ∧ (b ∈ l → t.shape b < p.grid.shape b) := by
    intro l
    induction l with
    | nil =>
      intro u t ht hg hof hle
      have ht := Except.ok.inj ht
      subst ht
      exact ⟨hg, hof, le_rfl, fun hh => by cases hh⟩
    | cons a l ih =>
      intro u t ht hg hof hle
      rw [List.foldlM_cons] at ht
      obtain ⟨m, hm, ht⟩ := Except.bind_eq_ok.1 ht
      obtain ⟨m1, m2, m3, m4⟩ := trim_step (b := b) hm (o := p.offset) (fun c => by rw [hg]; exact ⟨(ho c).1, (ho c).2.1⟩)
        (fun c => by rw [hg]; exact hN c) hof h1 hp (by rw [hg]; exact hle)
      obtain ⟨n1, n2, n3, n4⟩ := ih m t ht (m1.trans hg) m2 (m3.trans hle)
      refine ⟨n1, n2, n3.trans m3, fun hb => ?_⟩
      rcases List.mem_cons.1 hb with e | e
      · have := m4 e.symm
        rw [hg] at this
        omega
      · exact n4 e
  obtain ⟨e1, e2, -, e4⟩ := hfold _ p t ht rfl rfl hs.le
  have e4 := e4 (List.mem_finRange b)
  unfold padAndImposeBC at h
  obtain ⟨w, hw, -⟩ := Except.bind_eq_ok.1 h
  rw [Option.getD_some] at hw
  have hbad : ∀ (l : List (Fin d)), b ∈ l → ∀ w : GridArray d K, l.foldlM (bc.padImposeAxis p.offset .extend) t ≠ .ok w := by
    intro l
    induction l with
    | nil => intro hb; cases hb
    | cons a l ih =>
      intro hb w hw
      rw [List.foldlM_cons] at hw
      obtain ⟨m, hm, hw⟩ := Except.bind_eq_ok.1 hw
      unfold padImposeAxis at hm
      obtain ⟨x, hx, hm⟩ := Except.bind_eq_ok.1 hm
      have hne : ∀ c : Fin d, t.offset c ≠ 1 := fun c => by rw [e2]; exact (ho c).2.2
      rw [if_neg (fun hh => hne a hh.2)] at hm
      have hm := Except.ok.inj hm
      subst hm
      rcases List.mem_cons.1 hb with e | e
      · subst e
        unfold isAligned at hx
        dsimp only at hx
        have n1 : ¬ ((bc.types b).1 = .dirichlet ∧ t.offset b = 1) := fun hh => hne b hh.2
        have n2 : ¬ ((bc.types b).2 = .dirichlet ∧ t.offset b = 1) := fun hh => hne b hh.2
        have n3 : (t.shape b : ℤ) - t.grid.shape b < 0 := by rw [e1]; omega
        simp only [if_neg n1, if_neg n2] at hx
        split at hx
        · cases hx
        · first
            | cases hx
            | (rw [if_pos n3] at hx; cases hx)
      · exact ih e w hw
  exact hbad _ (List.mem_finRange b) w hw

variable [DecidableEq K]

/-- **C56.** `convect_linear` never returns, but raises, as soon as one axis (with at least two cells) is bounded by walls. -/
theorem C56_linear_convection_needs_periodic {g : Grid d K} {v : Fin d → GridVariable d K} (hv : VelocityField g v) (b : Fin d)
    (hwall : (v b).bc.types b = (.dirichlet, .dirichlet)) (hn : 2 ≤ g.shape b) (R : Fin d → GridArray d K) :
    convectLinear v ≠ .ok R := by
  intro h
  unfold convectLinear at h
  obtain ⟨av, hav, h⟩ := Except.bind_eq_ok.1 h
  obtain ⟨fl, hfl, -⟩ := Except.bind_eq_ok.1 h
  unfold alignVelocities at hav
  obtain ⟨_, -, hav⟩ := Except.bind_eq_ok.1 hav
  have hl := (seqFin_eq_ok _ _).1 ((seqFin_eq_ok _ _).1 hav b) b
  unfold velocitiesToFlux at hfl
  have hf := (seqFin_eq_ok _ _).1 ((seqFin_eq_ok _ _).1 hfl b) b
  rw [if_pos le_rfl] at hf
  unfold fluxEntry at hf
  obtain ⟨bc, hbc, hf⟩ := Except.bind_eq_ok.1 hf
  obtain ⟨p, hp, hf⟩ := Except.bind_eq_ok.1 hf
  obtain ⟨hpos, harr, -⟩ := hv
  obtain ⟨hg, hsh, hoff⟩ := harr b
  obtain ⟨l1, l2, l3⟩ := C23_offset_and_bc _ _ _ hl
  have lsh := linear_shape _ _ _ hl (fun a _ => by
    rw [hg, hoff a]
    have := hpos a
    have h1 : (1 : ℚ) ≤ g.shape a := by exact_mod_cast this
    refine ⟨?_, this⟩
    split <;> linarith)
  obtain ⟨-, -, -, rfl⟩ := gmap2_eq_ok.1 hp
  have hoffs : ∀ c : Fin d, (av b b).array.offset c = if c = b then 3 / 2 else 1 / 2 := fun c => by
    rw [l1]
    unfold controlVolumeOffsets
    rw [hoff c]
    split <;> norm_num
  have htyp : (bc.types b).2 ≠ .periodic := by
    unfold advectionFluxBC at hbc
    split at hbc
    · cases hbc
    · obtain ⟨r, hr, hbc⟩ := Except.bind_eq_ok.1 hbc
      have hbc := Except.ok.inj hbc
      subst hbc
      have hb := (seqFin_eq_ok _ _).1 hr b
      unfold fluxAxis at hb
      rw [l3, hwall] at hb
      rw [if_neg (by decide), if_neg (by simp)] at hb
      obtain ⟨lo, -, hb⟩ := Except.bind_eq_ok.1 hb
      obtain ⟨hi, hhi, hb⟩ := Except.bind_eq_ok.1 hb
      have hb := Except.ok.inj hb
      show (r b).1.2 ≠ .periodic
      rw [← hb]
      show hi.1 ≠ .periodic
      unfold fluxSide at hhi
      split at hhi
      · rw [← Except.ok.inj hhi]; exact fun hh => by cases hh
      · split at hhi
        · split at hhi
          · cases hhi
          · split at hhi
            · rw [← Except.ok.inj hhi]; exact fun hh => by cases hh
            · cases hhi
        · cases hhi
  have hgr : (av b b).array.grid = g := l2.trans hg
  refine C56_impose_beyond_wall bc _ b (fun c => ?_) ?_ htyp ?_ _ hf
  · show 0 < (av b b).array.offset c ∧ (av b b).array.offset c ≤ (av b b).array.grid.shape c ∧ (av b b).array.offset c ≠ 1
    rw [hoffs c, hgr]
    have h1 : (1 : ℚ) ≤ g.shape c := by exact_mod_cast hpos c
    by_cases hc : c = b
    · subst hc
      have h2 : (2 : ℚ) ≤ g.shape c := by exact_mod_cast hn
      rw [if_pos rfl]
      exact ⟨by norm_num, by linarith, by norm_num⟩
    · rw [if_neg hc]
      exact ⟨by norm_num, by linarith, by norm_num⟩
  · show 1 < (av b b).array.offset b
    rw [hoffs b, if_pos rfl]; norm_num
  · show (av b b).array.shape b = (av b b).array.grid.shape b
    rw [hgr, lsh, hsh]

namespace Fixtures

/-- The hypotheses are met: a vortex between four walls. -/
example [HasNan ℝ] (R : Fin 2 → GridArray 2 ℝ) : convectLinear vortex ≠ .ok R :=
  C56_linear_convection_needs_periodic vortex_field 0 rfl (by simp [box3]) R

end Fixtures

end JaxCfd

namespace JaxCfd

variable {d : ℕ} [HasNan ℝ]

/-- **C56.** Between walls neither Navier-Stokes step can be taken with `convect_linear` as convection either: both steps raise,
whatever the density, viscosity, forcing and solvers. -/
theorem C56_linear_steps_need_periodic {g : Grid d ℝ} {v : Fin d → GridVariable d ℝ} (hv : VelocityField g v) (b : Fin d)
    (hwall : (v b).bc.types b = (.dirichlet, .dirichlet)) (hn : 2 ≤ g.shape b)
    (density dt nu : ℝ) (viscosity : Option ℝ) (solve : PressureSolver d ℝ)
    (dsolve : (Fin d → GridVariable d ℝ) → ℝ → ℝ → Except Err (Fin d → GridVariable d ℝ)) (D : DiffuseFn d) (f : Option (ForcingFn d))
    (w : Fin d → GridVariable d ℝ) (hcl : Clean v) :
    semiImplicitNavierStokes density viscosity dt solve (some convectLinear) D f forwardEuler v ≠ .ok w ∧
    implicitDiffusionNavierStokes density nu dt solve dsolve (some convectLinear) f v ≠ .ok w := by
  have h2 : ∀ c, convectLinear v ≠ .ok c := C56_linear_convection_needs_periodic hv b hwall hn
  refine ⟨fun h => ?_, fun h => ?_⟩
  · obtain ⟨T, p, hT, -⟩ := (C56_forward_euler_step density viscosity dt solve (some convectLinear) D f v w hcl).1 h
    unfold explicitTerms at hT
    obtain ⟨c, hc, -⟩ := Except.bind_eq_ok.1 hT
    exact h2 c hc
  · unfold implicitDiffusionNavierStokes accelerations at h
    obtain ⟨t, ht, -⟩ := Except.bind_eq_ok.1 h
    obtain ⟨c, hc, -⟩ := Except.bind_eq_ok.1 ht
    exact h2 c hc

namespace Fixtures

example (w : Fin 2 → GridVariable 2 ℝ) :
    semiImplicitNavierStokes 1 none (1 / 10) (defaultSolver false exists_eigh.choose (1 / 1000000)) (some convectLinear) diffuse none
      forwardEuler vortex ≠ .ok w :=
  (C56_linear_steps_need_periodic vortex_field 0 rfl (by simp [box3]) 1 (1 / 10) 1 none _ (fun v _ _ => .ok v) diffuse none w
    vortex_clean).1

end Fixtures

end JaxCfd
