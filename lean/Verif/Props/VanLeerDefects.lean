import Verif.Props.Fixtures
import Verif.Props.PermutationTrajectory

/-!
# C27, C72: `advect_van_leer` on data that is not at the cell centres
-/

namespace JaxCfd
open Fixtures

namespace Fixtures

/-- a 2 × 4 grid of unit cells -/
def g24 : Grid 2 ℚ := ⟨![2, 4], ![(0, 2), (0, 4)]⟩

/-- the same grid with the axes exchanged -/
def g42 : Grid 2 ℚ := ⟨![4, 2], ![(0, 4), (0, 2)]⟩

/-- a scalar at offset `o` that vanishes on the first column and is `0, 1, 3, 0` along the second one -/
def column (o : Fin 2 → ℚ) : GridVariable 2 ℚ :=
  ⟨⟨⟨![2, 4], fun i => if i 0 = 1 then (if i 1 = 1 then 1 else if i 1 = 2 then 3 else 0) else 0⟩, o, g24⟩, periodicBC 2⟩

/-- the same scalar with the axes exchanged -/
def row (o : Fin 2 → ℚ) : GridVariable 2 ℚ :=
  ⟨⟨⟨![4, 2], fun i => if i 1 = 1 then (if i 0 = 1 then 1 else if i 0 = 2 then 3 else 0) else 0⟩, o, g42⟩, periodicBC 2⟩

/-- a unit velocity along the columns -/
def along : Fin 2 → GridVariable 2 ℚ := fun a => ⟨⟨⟨![2, 4], fun _ => if a = 1 then 1 else 0⟩, fun b => if b = a then 1 else 1 / 2, g24⟩, periodicBC 2⟩

/-- the same velocity with the axes exchanged -/
def across : Fin 2 → GridVariable 2 ℚ := fun a => ⟨⟨⟨![4, 2], fun _ => if a = 0 then 1 else 0⟩, fun b => if b = a then 1 else 1 / 2, g42⟩, periodicBC 2⟩

/-- entry of a successful result, and its shape -/
def entry (r : Except Err (GridArray 2 ℚ)) (n : Fin 2 → ℕ) (i : Idx 2) (x : ℚ) : Bool :=
  match r with
  | .ok r => decide (r.shape = n ∧ r.data i = x)
  | .error _ => false

theorem entry_ok {r : Except Err (GridArray 2 ℚ)} {n : Fin 2 → ℕ} {i : Idx 2} {x : ℚ} (h : entry r n i x = true) : ∃ s, r = .ok s ∧ s.shape = n ∧ s.data i = x := by
  unfold entry at h
  split at h
  · exact ⟨_, rfl, of_decide_eq_true h⟩
  · cases h

end Fixtures

/-- **C27** (defect) On staggered data `advect_van_leer` takes the second order correction of the flux from the wrong cells.  The scalar lives where the first velocity component
does, vanishes on a whole column, and the velocity is parallel to that column: upwind and limited interpolation leave the column alone, `advect_van_leer` changes it. -/
theorem C27_van_leer_staggered_defect :
    (∀ j : ℤ, (column ![1, 1 / 2]).array.data ![0, j] = 0) ∧
    (∃ s, advectVanLeer 1 (column ![1, 1 / 2]) along (1 / 2) = .ok s ∧ s.shape = ![2, 4] ∧ s.data ![0, 1] = -(1 / 3)) ∧
    (∃ s, advectVanLeerUsingLimiters (column ![1, 1 / 2]) along (1 / 2) = .ok s ∧ s.shape = ![2, 4] ∧ s.data ![0, 1] = 0) ∧
    (∃ s, advectUpwind (column ![1, 1 / 2]) along (1 / 2) = .ok s ∧ s.shape = ![2, 4] ∧ s.data ![0, 1] = 0) := by
  refine ⟨fun j => by simp [column], entry_ok ?_, entry_ok ?_, entry_ok ?_⟩ <;> decide +kernel

theorem row_relabelled (o : Fin 2 → ℚ) : (column o).Relabelled (Equiv.swap 0 1) (row fun a => o (Equiv.swap 0 1 a)) := by
  refine ⟨rfl, fun _ => rfl, fun _ => rfl, ?_, rfl, fun a => ?_, fun a => ?_, fun i hi => ?_⟩
  · show g42 = g24.permute _
    unfold g42 g24 Grid.permute
    congr 1 <;> (funext a; fin_cases a <;> rfl)
  · fin_cases a <;> rfl
  · exact (by decide : ∀ a, 0 < (![2, 4] : Fin 2 → ℕ) a) a
  · simp [row, column, original]

theorem across_relabelled : VelocityRelabelled (Equiv.swap 0 1) along across := by
  intro a
  refine ⟨rfl, fun _ => rfl, fun b => ?_, ?_, rfl, fun b => ?_, fun b => ?_, fun i hi => ?_⟩
  · fin_cases a <;> fin_cases b <;> simp [across, along]
  · show g42 = g24.permute _
    unfold g42 g24 Grid.permute
    congr 1 <;> (funext a; fin_cases a <;> rfl)
  · fin_cases b <;> rfl
  · exact (by decide : ∀ a, 0 < (![2, 4] : Fin 2 → ℕ) a) b
  · fin_cases a <;> simp [across, along]

/-- **C72** (defect) The leaked loop variable makes the last axis special: for data at offset 0 along one axis, `advect_van_leer` of the relabelled fields is not the relabelled result.
The limited scheme gives the same on both sides. -/
theorem C72_van_leer_axis_defect :
    ∃ (c c' : GridVariable 2 ℚ) (v v' : Fin 2 → GridVariable 2 ℚ), c.Relabelled (Equiv.swap 0 1) c' ∧ VelocityRelabelled (Equiv.swap 0 1) v v' ∧
      ¬ RelS (GridArray.Relabelled (Equiv.swap 0 1)) (advectVanLeer 1 c v (1 / 2)) (advectVanLeer 1 c' v' (1 / 2)) := by
  refine ⟨_, _, _, _, row_relabelled ![1 / 2, 0], across_relabelled, fun h => ?_⟩
  obtain ⟨s, hs, _, hd⟩ : ∃ s, advectVanLeer 1 (column ![1 / 2, 0]) along (1 / 2) = .ok s ∧ s.shape = ![2, 4] ∧ s.data ![1, 1] = -(4 / 3) := entry_ok (by decide +kernel)
  obtain ⟨s', hs', hg, hd'⟩ : ∃ s, advectVanLeer 1 (row fun a => (![1 / 2, 0] : Fin 2 → ℚ) (Equiv.swap 0 1 a)) across (1 / 2) = .ok s ∧ s.shape = ![4, 2] ∧ s.data ![1, 1] = -1 := entry_ok (by decide +kernel)
  obtain ⟨t, ht, hst⟩ := h s hs
  rw [hs'] at ht
  cases Except.ok.inj ht
  have := hst.2.2.2.2.2 ![1, 1] (by rw [hg]; intro a; fin_cases a <;> decide)
  rw [hd', show original (Equiv.swap 0 1) ![1, 1] = (![1, 1] : Idx 2) by funext a; fin_cases a <;> simp [original], hd] at this
  norm_num at this

end JaxCfd
