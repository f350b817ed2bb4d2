import Verif.Props.TopHatWalls
import Verif.Props.Fixtures

/-! # C70, continued: a defect, and concrete cases of the hypotheses -/

set_option linter.unusedSectionVars false

namespace JaxCfd
variable {K : Type} [Field K] [HasNan K]

/-- **C70** (defect) With factor 1 and a filter larger than 1 (accepted by the checks) a cell-centered variable comes back with one
value more than its grid has cells. -/
theorem C70_factor_one_defect [CharZero K] (source : Grid 1 K) (g : ℕ) (hg : 0 < g) (c : GridVariable 1 K)
    (hs : 0 < source.shape 0) (hd : (source.domain 0).2 ≠ (source.domain 0).1)
    (hgrid : c.array.grid = source) (hshape : c.array.shape = source.shape) (ho : ∀ a, c.array.offset a = 1 / 2)
    (hb : ∀ a, c.bc.types a = (.periodic, .periodic)) :
    ∃ r, topHatDownsample source source [c] (some fun _ => 2 * g) = .ok [r] ∧
      r.array.grid = source ∧ r.array.shape 0 = source.shape 0 + 1 := by
  have h : CoarserBy source source (fun _ => 1) :=
    ⟨rfl, fun _ => one_pos, fun a => by rw [Subsingleton.elim a 0]; exact hs, fun a => by ring,
      fun a => by rw [Subsingleton.elim a 0]; exact hd⟩
  have hf : FilterOK (fun _ : Fin 1 => 1) ((some fun _ : Fin 1 => 2 * g).getD fun _ => 1) :=
    ⟨fun _ => Or.inr rfl, fun _ => Or.inl (by simp), fun _ => by simp; omega⟩
  rw [topHat_unfold h _ hf]
  have hlin : linear c (centerOffset c.array.offset ((some fun _ : Fin 1 => 2 * g).getD fun _ => 1)) = .ok c :=
    linear_skip c _ fun a => by unfold centerOffset; split_ifs <;> simp [ho]
  obtain ⟨p, q, hp, hq, qs, -⟩ := BC.pad_both c.bc c.array 0 g (by rw [hshape, hgrid]) (by rw [hgrid]; exact hs) (Or.inl (hb 0))
  have hdiv : (2 * g) / 2 = g := by omega
  have hax : ∃ r, topHatAxis c.bc source source c.array.offset (fun _ => 1) (fun _ => 2 * g) c.array 0 = .ok r ∧
      r.grid = source ∧ r.shape 0 = source.shape 0 + 1 := by
    unfold topHatAxis
    dsimp only
    rw [hdiv, hp, Except.bind_ok, hq, Except.bind_ok]
    unfold combSlice
    rw [if_pos (by omega), if_neg (by rw [ho]; norm_num), if_pos (ho 0), Except.bind_ok]
    refine ⟨_, rfl, ?_, ?_⟩
    · show (⟨Function.update c.array.grid.shape 0 (source.shape 0), source.domain⟩ : Grid 1 K) = source
      rw [hgrid, Function.update_eq_self]
    · have e : (movingAverage q.toNArr 0 (2 * g)).shape 0 = source.shape 0 + 1 := by
        unfold movingAverage
        dsimp only
        rw [Function.update_self, show q.toNArr.shape = _ from qs, Function.update_self, hshape]
        omega
      unfold sliceAx
      dsimp only
      rw [Function.update_self, e]
      unfold PySlice.len PySlice.hi PySlice.lo clipBound
      simp
  obtain ⟨r, hr, hr1, hr2⟩ := hax
  refine ⟨⟨r, c.bc⟩, ?_, hr1, hr2⟩
  have hone : topHatOne source source (fun _ => 1) ((some fun _ : Fin 1 => 2 * g).getD fun _ => 1) c = .ok ⟨r, c.bc⟩ := by
    unfold topHatOne
    rw [if_neg (by simp [hgrid]), hlin, Except.bind_ok]
    have : List.finRange 1 = [0] := rfl
    rw [this, List.foldlM_cons, Option.getD_some, hr]
    rfl
  rw [List.mapM_cons, hone]
  rfl

open Fixtures

namespace Fixtures
/-- 4 x 6 cells, coarsened to 2 x 3 -/
def th46 : Grid 2 ℚ := ⟨![4, 6], fun a => (0, if a = 0 then 2 else 3)⟩
def th23 : Grid 2 ℚ := ⟨![2, 3], fun a => (0, if a = 0 then 2 else 3)⟩
/-- data at the upper faces along axis 0 -/
def thArr (o : Fin 2 → ℚ) : GridArray 2 ℚ := ⟨⟨![4, 6], fun i => (i 0 : ℚ) ^ 2 + 7 * (i 1 : ℚ)⟩, o, th46⟩
def bcWall2 : BC 2 ℚ := ⟨.constant, fun a => if a = 0 then (.dirichlet, .dirichlet) else (.neumann, .dirichlet), fun _ => (some 3, some 5)⟩
/-- data on the upper faces of `g4`, Dirichlet on both sides -/
def thFace : GridVariable 1 ℚ := ⟨uFace, bcDir⟩
end Fixtures

theorem th_coarser : CoarserBy th46 th23 (fun _ => 2) :=
  ⟨rfl, fun _ => by norm_num, fun a => by fin_cases a <;> norm_num [th23], fun a => by fin_cases a <;> norm_num [th46, th23],
    fun a => by fin_cases a <;> norm_num [th46]⟩

/-- default filter, and a filter of 4 cells along the first axis -/
example : FilterOK (fun _ : Fin 2 => 2) ((none : Option (Fin 2 → ℕ)).getD fun _ => 2) ∧
    FilterOK (fun _ : Fin 2 => 2) ((some ![4, 2]).getD fun _ => 2) ∧ ∀ a : Fin 2, 2 ∣ (![4, 2] : Fin 2 → ℕ) a :=
  ⟨⟨fun _ => Or.inl rfl, fun _ => Or.inl (by simp), fun _ => le_refl _⟩,
    ⟨fun _ => Or.inl rfl, fun a => by fin_cases a <;> simp, fun a => by fin_cases a <;> simp⟩, fun a => by fin_cases a <;> norm_num⟩

/-- a periodic variable at the upper faces along axis 0 -/
example : PeriodicInput th46 (fun _ => 2) ((some ![4, 2]).getD fun _ => 2) ⟨thArr ![1, 1 / 2], bcPer2⟩ :=
  ⟨⟨fun _ => rfl, fun a => ⟨rfl, by fin_cases a <;> norm_num [thArr, th46]⟩⟩, rfl, fun a _ => by
    fin_cases a
    · right; left; rfl
    · right; right; exact ⟨rfl, by norm_num⟩⟩

/-- a cell-centered variable between walls, for `C70_cell_centered` -/
example : let c : GridVariable 2 ℚ := ⟨thArr fun _ => 1 / 2, bcWall2⟩
    c.array.grid = th46 ∧ c.array.shape = th46.shape ∧ (∀ a, c.array.offset a = 1 / 2) ∧
      ∀ a, c.bc.types a = (.periodic, .periodic) ∨ (BC.Wall (c.bc.types a).1 ∧ BC.Wall (c.bc.types a).2) := by
  refine ⟨rfl, rfl, fun _ => rfl, fun a => Or.inr ?_⟩
  fin_cases a
  · exact ⟨Or.inl rfl, Or.inl rfl⟩
  · exact ⟨Or.inr rfl, Or.inl rfl⟩

/-- a variable on the faces of a channel, for `C70_window` and `C70_wall` -/
theorem th_face : Filterable g4 (fun _ => 2) ((none : Option (Fin 1 → ℕ)).getD fun _ => 2) thFace := by
  refine ⟨rfl, rfl, fun a _ => Or.inr (Or.inl rfl), fun a => Or.inr ⟨Or.inl rfl, Or.inl rfl, fun h => by simp at h, ?_⟩, ?_⟩
  · norm_num [g4]
  · have : (linear thFace (centerOffset thFace.array.offset (fun _ => 2))).isOk = true := by decide +kernel
    cases h : linear thFace (centerOffset thFace.array.offset (fun _ => 2)) with
    | error e => rw [h] at this; cases this
    | ok r => exact ⟨r, h⟩

example : CoarserBy g4 ⟨fun _ => 2, fun _ => (0, 2)⟩ (fun _ => 2) ∧
    (∀ a : Fin 1, WindowAt (thFace.array.offset a) 2 2 1 3) :=
  ⟨⟨rfl, fun _ => by norm_num, fun _ => by norm_num, fun _ => by norm_num [g4], fun _ => by norm_num [g4]⟩,
    fun a => by unfold WindowAt; norm_num [thFace, uFace]⟩

end JaxCfd
