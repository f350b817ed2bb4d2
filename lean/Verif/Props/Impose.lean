import Verif.Lemmas.Impose
import Verif.Props.Fixtures

/-!
# C12, C14: `impose_bc` and `trim_boundary`
-/

set_option linter.unusedSectionVars false

namespace JaxCfd
variable {d : ℕ} {K : Type} [Field K] [HasNan K]

/-- The point `i` of `u` lies on a Dirichlet wall of axis `a`, and `b` is the prescribed value there. -/
def OnWall (bc : BC d K) (u : GridArray d K) (i : Idx d) (a : Fin d) (b : K) : Prop :=
  (bc.types a).1 = .dirichlet ∧
    ((u.offset a + i a = 0 ∧ b = (bc.constantValues a).1) ∨
     (u.offset a + i a = u.grid.shape a ∧ b = (bc.constantValues a).2))

theorem wallVal_of_onWall {bc : BC d K} {u : GridArray d K} (h : BC.OnGrid bc u) {i : Idx d}
    (hi : InR u.shape i) (a : Fin d) (b : K) :
    BC.wallVal bc u.grid.shape u.offset a (i a) = some b ↔ OnWall bc u i a b := by
  obtain ⟨hs, hN, hk⟩ := h a
  have hia := hi a
  rw [hs] at hia
  unfold BC.wallVal OnWall
  have q0 : ∀ z : ℤ, ((z : ℚ) = 0 ↔ z = 0) := fun z => by norm_cast
  obtain hp | ⟨h1, h2, ho⟩ | ⟨ht, ho⟩ := hk
  · simp [hp]
  · have n0 : ¬ ((1 / 2 : ℚ) + i a = 0) := by
      intro hh
      have : (0 : ℚ) ≤ i a := by exact_mod_cast hia.1
      linarith
    have n1 : ¬ ((1 / 2 : ℚ) + i a = u.grid.shape a) := by
      intro hh
      have h3 : (1 : ℚ) + 2 * i a = 2 * u.grid.shape a := by linarith
      have : (1 : ℤ) + 2 * i a = 2 * u.grid.shape a := by exact_mod_cast h3
      omega
    rw [ho, if_neg (by rintro ⟨-, hh, -⟩; norm_num at hh),
      if_neg (by rintro ⟨-, hh, -⟩; norm_num at hh)]
    simp [-one_div, n0, n1]
  · rcases ho with ho | ho
    · have n1 : ¬ ((0 : ℚ) + i a = u.grid.shape a) := by
        intro hh
        have h3 : (i a : ℚ) = u.grid.shape a := by linarith
        have : (i a : ℤ) = u.grid.shape a := by exact_mod_cast h3
        omega
      rw [ho, ht]
      by_cases hz : i a = 0
      · have n2 : ¬ (u.grid.shape a = 0) := by omega
        have n3 : ¬ ((0 : ℚ) = u.grid.shape a) := by exact_mod_cast Ne.symm n2
        simp [hz, n3, eq_comm]
      · have : ¬ (i a : ℚ) = 0 := by exact_mod_cast hz
        simp only [zero_add] at n1
        simp [hz, this, n1]
    · have e : ((1 : ℚ) + i a = u.grid.shape a) ↔ i a = (u.grid.shape a : ℤ) - 1 := by
        constructor
        · intro hh
          have : (1 : ℤ) + i a = u.grid.shape a := by exact_mod_cast hh
          omega
        · intro hh; rw [hh]; push_cast; ring
      have n0 : ¬ ((1 : ℚ) + i a = 0) := by
        intro hh
        have : (0 : ℚ) ≤ i a := by exact_mod_cast hia.1
        linarith
      rw [ho, ht]
      by_cases hz : i a = (u.grid.shape a : ℤ) - 1
      · have e2 := e.2 hz
        rw [if_neg (by rintro ⟨-, hh, -⟩; norm_num at hh), if_pos ⟨rfl, rfl, hz⟩]
        rw [e2] at n0
        simp only [e2, n0, false_and, false_or, true_and, Option.some.injEq, eq_comm]
      · simp [e, n0, hz]

theorem foldl_getD_none {α : Type} (w : α → Option K) (l : List α) (x : K)
    (h : ∀ a ∈ l, w a = none) : l.foldl (fun acc a => (w a).getD acc) x = x := by
  induction l generalizing x with
  | nil => rfl
  | cons a l ih =>
    rw [List.foldl_cons, h a (by simp)]
    exact ih x (fun b hb => h b (by simp [hb]))

theorem foldl_getD_last {α : Type} (w : α → Option K) (l₁ l₂ : List α) (a : α) (x b : K)
    (ha : w a = some b) (h : ∀ c ∈ l₂, w c = none) :
    (l₁ ++ a :: l₂).foldl (fun acc a => (w a).getD acc) x = b := by
  rw [List.foldl_append, List.foldl_cons, ha, foldl_getD_none w l₂ _ h]
  rfl

theorem finRange_split (a : Fin d) : ∃ l₁ l₂, List.finRange d = l₁ ++ a :: l₂ ∧
    ∀ c ∈ l₂, a < c := by
  obtain ⟨l₁, l₂, h⟩ := List.append_of_mem (List.mem_finRange a)
  refine ⟨l₁, l₂, h, fun c hc => ?_⟩
  have hp : (List.finRange d).Pairwise (· < ·) := List.pairwise_lt_finRange d
  rw [h, List.pairwise_append] at hp
  exact List.rel_of_pairwise_cons hp.2.1 hc

/-- **C12** `impose_bc` of a variable living on the grid succeeds and keeps shape, offset, grid and boundary
condition; every entry that lies on no Dirichlet wall is unchanged; an entry on a wall equals the prescribed
boundary value of that wall (of the last axis, where walls of several axes meet). -/
theorem C12_impose_bc (bc : BC d K) (u : GridArray d K) (h : BC.OnGrid bc u) :
    ∃ r, bc.imposeBC u = .ok ⟨r, bc⟩ ∧ r.shape = u.shape ∧ r.offset = u.offset ∧ r.grid = u.grid ∧
      (∀ i, InR u.shape i → (∀ a b, ¬ OnWall bc u i a b) → r.data i = u.data i) ∧
      (∀ i, InR u.shape i → ∀ a b, OnWall bc u i a b → (∀ c > a, ∀ b', ¬ OnWall bc u i c b') →
        r.data i = b) := by
  obtain ⟨r, hr, rs, ro, rg, rd⟩ := BC.imposeBC_ok bc u h
  refine ⟨r, hr, rs, ro, rg, fun i hi hw => ?_, fun i hi a b hab hc => ?_⟩
  · rw [rd i hi, foldl_getD_none]
    intro a _
    rw [Option.eq_none_iff_forall_ne_some]
    intro b hb
    exact hw a b ((wallVal_of_onWall h hi a b).1 hb)
  · rw [rd i hi]
    obtain ⟨l₁, l₂, hl, hlt⟩ := finRange_split a
    rw [hl]
    apply foldl_getD_last (fun a => BC.wallVal bc u.grid.shape u.offset a (i a)) l₁ l₂ a _ b
      ((wallVal_of_onWall h hi a b).2 hab)
    intro c hc'
    rw [Option.eq_none_iff_forall_ne_some]
    intro b' hb'
    exact hc c (hlt c hc') b' ((wallVal_of_onWall h hi c b').1 hb')

/-- **C12** Imposing the boundary condition twice is the same as once. -/
theorem C12_impose_bc_idempotent (bc : BC d K) (u : GridArray d K) (h : BC.OnGrid bc u) :
    ∃ r r', bc.imposeBC u = .ok r ∧ r.imposeBC = .ok r' ∧ r'.Eqv r := by
  obtain ⟨r, hr, rs, ro, rg, rd⟩ := BC.imposeBC_ok bc u h
  have h' : BC.OnGrid bc r := by
    intro a
    have := h a
    rw [rs, rg, ro]; exact this
  obtain ⟨r', hr', rs', ro', rg', rd'⟩ := BC.imposeBC_ok bc r h'
  refine ⟨⟨r, bc⟩, ⟨r', bc⟩, hr, hr', rfl, ro', rg', rs', fun i hi => ?_⟩
  rw [rs'] at hi
  have hi' : InR u.shape i := by rw [← rs]; exact hi
  show r'.data i = r.data i
  rw [rd' i hi, rd i hi', rg, ro]
  generalize List.finRange d = l
  generalize hw : (fun a => BC.wallVal bc u.grid.shape u.offset a (i a)) = w
  have : ∀ a, BC.wallVal bc u.grid.shape u.offset a (i a) = w a := fun a => by rw [← hw]
  simp only [this]
  generalize u.data i = x
  -- overwriting twice with the same values
  have : ∀ (l : List (Fin d)) (x y : K), (∃ a ∈ l, ∃ b, w a = some b) →
      l.foldl (fun acc a => (w a).getD acc) x = l.foldl (fun acc a => (w a).getD acc) y := by
    intro l
    induction l with
    | nil => rintro x y ⟨a, ha, -⟩; simp at ha
    | cons a l ih =>
      intro x y hex
      rw [List.foldl_cons, List.foldl_cons]
      cases hwa : w a with
      | some b => rfl
      | none =>
        apply ih
        obtain ⟨c, hc, b, hb⟩ := hex
        rcases List.mem_cons.1 hc with rfl | hc
        · rw [hwa] at hb; cases hb
        · exact ⟨c, hc, b, hb⟩
  by_cases hex : ∃ a ∈ l, ∃ b, w a = some b
  · exact this l _ _ hex
  · have hn : ∀ a ∈ l, w a = none := by
      intro a ha
      rw [Option.eq_none_iff_forall_ne_some]
      intro b hb
      exact hex ⟨a, ha, b, hb⟩
    rw [foldl_getD_none w l _ hn]

/-- **C12** For variables without wall points (periodic or cell-centred along every axis) `impose_bc` is the
identity. -/
theorem C12_impose_bc_identity (bc : BC d K) (u : GridArray d K) (h : BC.OnGrid bc u)
    (hc : ∀ a, bc.types a = (.periodic, .periodic) ∨ u.offset a = 1 / 2) :
    ∃ r, bc.imposeBC u = .ok r ∧ r.Eqv ⟨u, bc⟩ := by
  obtain ⟨r, hr, rs, ro, rg, hin, -⟩ := C12_impose_bc bc u h
  refine ⟨_, hr, rfl, ro, rg, rs, fun i hi => ?_⟩
  have hi : InR u.shape i := by rw [← rs]; exact hi
  refine hin i hi (fun a b hab => ?_)
  rcases hc a with hp | ho
  · have := hab.1
    rw [hp] at this; cases this
  · have h1 := (wallVal_of_onWall h hi a b).2 hab
    unfold BC.wallVal at h1
    rw [ho, if_neg (by rintro ⟨-, hh, -⟩; norm_num at hh),
      if_neg (by rintro ⟨-, hh, -⟩; norm_num at hh)] at h1
    cases h1

/-- What `trim_boundary` expects of an array, along every axis: one period of a periodic variable; or, between
walls, an array overlapping the domain, containing all interior points (the library's own `_is_aligned`
check), and not edge-aligned to an upper Neumann wall. -/
def Trimmable (bc : BC d K) (u : GridArray d K) : Prop := ∀ a, 0 < u.grid.shape a ∧
  ((bc.types a = (.periodic, .periodic) ∧ u.shape a = u.grid.shape a) ∨
   ((bc.types a).1 ≠ .periodic ∧ (bc.types a).2 ≠ .periodic ∧
    ((bc.types a).2 = .dirichlet ∨ Int.fract (u.offset a) ≠ 0) ∧
    -(u.shape a : ℚ) < u.offset a ∧ u.offset a ≤ u.grid.shape a ∧ bc.isAligned u a = .ok ()))

theorem Trimmable.trimOK {bc : BC d K} {u : GridArray d K} (h : Trimmable bc u) (a : Fin d) :
    BC.TrimOK bc u a := by
  obtain ⟨hN, ⟨h1, h2⟩ | ⟨h1, h2, h3, h4, h5, h6⟩⟩ := h a
  · exact Or.inl ⟨h1, h2⟩
  · exact Or.inr ⟨h1, h2, h3, h4, h5, hN, h6⟩

/-- **C14** `trim_boundary` keeps exactly the entries of `u` whose position lies strictly inside the domain
along every non-periodic axis (all entries along periodic axes), in order: the result is the block of `u` starting at
some index `lo`. -/
theorem C14_trim_boundary (bc : BC d K) (u : GridArray d K) (h : Trimmable bc u) :
    ∃ (v : GridArray d K) (lo : Fin d → ℕ), bc.trimBoundary u = .ok v ∧ v.grid = u.grid ∧
      (∀ a, v.offset a = u.offset a + lo a) ∧
      (∀ i : Idx d, v.data i = u.data (fun a => i a + lo a)) ∧
      (∀ i : Idx d, (∀ a, 0 ≤ i a) → (InR v.shape i ↔ InR u.shape (fun a => i a + lo a) ∧
        ∀ a, (bc.types a).1 ≠ .periodic →
          0 < u.offset a + (i a + lo a) ∧ u.offset a + (i a + lo a) < u.grid.shape a)) ∧
      (∀ (i : Idx d), InR u.shape i → (∀ a, (bc.types a).1 ≠ .periodic →
          0 < u.offset a + i a ∧ u.offset a + i a < u.grid.shape a) → ∀ a, (lo a : ℤ) ≤ i a) := by
  refine ⟨_, BC.axLo bc u, BC.trimBoundary_ok bc u h.trimOK, rfl, fun a => rfl, fun i => rfl, ?_, ?_⟩
  · intro i hi0
    have key : ∀ a, (0 ≤ i a ∧ i a < (BC.axSize bc u a : ℤ)) ↔
        ((0 ≤ i a + BC.axLo bc u a ∧ i a + (BC.axLo bc u a : ℤ) < u.shape a) ∧
          ((bc.types a).1 ≠ .periodic →
          0 < u.offset a + (i a + BC.axLo bc u a) ∧ u.offset a + (i a + BC.axLo bc u a) < u.grid.shape a)) := by
      intro a
      have h0 := hi0 a
      unfold BC.axSize BC.axLo
      by_cases hp : (bc.types a).1 = .periodic
      · simp [hp]
      · simp only [hp, if_false, ne_eq, not_false_eq_true, true_implies]
        have e1 := BC.trimLo_iff (u.offset a) (i a + BC.trimLo (u.offset a)) (by omega)
        have e2 := BC.trimHi_iff (u.shape a) (u.grid.shape a) (u.offset a)
          (i a + BC.trimLo (u.offset a)) (by omega)
        push_cast at e1 e2
        have : i a < ((BC.trimHi (u.shape a) (u.grid.shape a) (u.offset a) -
            BC.trimLo (u.offset a) : ℕ) : ℤ) ↔ i a + (BC.trimLo (u.offset a) : ℤ) <
            BC.trimHi (u.shape a) (u.grid.shape a) (u.offset a) := by omega
        rw [this, e2]
        have p := e1.1 (by omega)
        constructor
        · rintro ⟨a1, a2, a3⟩; exact ⟨⟨by omega, a2⟩, p, a3⟩
        · rintro ⟨⟨a1, a2⟩, a3, a4⟩; exact ⟨h0, a2, a4⟩
    constructor
    · intro hin
      exact ⟨fun a => ((key a).1 (hin a)).1, fun a => ((key a).1 (hin a)).2⟩
    · rintro ⟨x, y⟩ a
      exact (key a).2 ⟨x a, y a⟩
  · intro i hi hpos a
    unfold BC.axLo
    by_cases hp : (bc.types a).1 = .periodic
    · simp [hp, (hi a).1]
    · simp only [hp, if_false]
      exact (BC.trimLo_iff (u.offset a) (i a) (hi a).1).2 (hpos a hp).1

/-- **C14** Trimming a second time changes nothing. -/
theorem C14_trim_boundary_idempotent (bc : BC d K) (u : GridArray d K) (h : BC.OnGrid bc u) :
    ∃ v, bc.trimBoundary u = .ok v ∧ bc.trimBoundary v = .ok v := by
  refine ⟨_, BC.trimBoundary_ok bc u h.trimOK, ?_⟩
  set v : GridArray d K := ⟨⟨BC.axSize bc u, fun i => u.data fun a => i a + BC.axLo bc u a⟩,
      fun a => u.offset a + BC.axLo bc u a, u.grid⟩ with hv
  have key : ∀ a, BC.TrimOK bc v a ∧ BC.axSize bc v a = v.shape a ∧ BC.axLo bc v a = 0 := by
    intro a
    obtain ⟨hs, hN, hp | ⟨h1, h2, ho⟩ | ⟨ht, ho⟩⟩ := h a
    · refine ⟨Or.inl ⟨hp, ?_⟩, ?_, ?_⟩
      · simp [hv, BC.axSize, hp, hs]
      · simp [BC.axSize, hp]
      · simp [BC.axLo, hp]
    · have e1 : v.shape a = v.grid.shape a := by
        simp only [hv, BC.axSize, h1, if_false, ho, hs, BC.trimLo_half, BC.trimHi_half]; omega
      have e2 : v.offset a = 1 / 2 := by
        simp only [hv, BC.axLo, h1, if_false, ho, BC.trimLo_half]; norm_num
      have hNQ : (1 : ℚ) ≤ v.grid.shape a := by exact_mod_cast hN
      refine ⟨Or.inr ⟨h1, h2, Or.inr ?_, ?_, ?_, hN, BC.isAligned_center _ _ _ e2 e1⟩, ?_, ?_⟩
      · rw [e2, BC.fract_half]; norm_num
      · rw [e2, e1]; linarith
      · rw [e2]; linarith
      · simp only [BC.axSize, h1, if_false, e2, e1, BC.trimLo_half, BC.trimHi_half]; omega
      · simp only [BC.axLo, h1, if_false, e2, BC.trimLo_half]
    · have np : ¬ (BCType.dirichlet = BCType.periodic) := by decide
      have t1 : (bc.types a).1 = .dirichlet := by rw [ht]
      have t2 : (bc.types a).2 = .dirichlet := by rw [ht]
      have e1 : v.shape a = u.grid.shape a - 1 := by
        rcases ho with ho | ho
        · simp [hv, BC.axSize, ht, ho, hs, BC.trimLo_zero, BC.trimHi_zero]
        · simp [hv, BC.axSize, ht, ho, hs, BC.trimLo_one, BC.trimHi_one]
      have e2 : v.offset a = 1 := by
        rcases ho with ho | ho
        · simp [hv, BC.axLo, ht, ho, BC.trimLo_zero]
        · simp [hv, BC.axLo, ht, ho, BC.trimLo_one]
      have hNQ : (1 : ℚ) ≤ v.grid.shape a := by exact_mod_cast hN
      refine ⟨Or.inr ⟨by rw [t1]; exact np, by rw [t2]; exact np, Or.inl t2, ?_, ?_, hN,
        BC.isAligned_face _ _ _ t1 t2 e2 (by rw [e1]; show u.grid.shape a ≤ _; omega)⟩, ?_, ?_⟩
      · rw [e2]
        have : (0 : ℚ) ≤ v.shape a := Nat.cast_nonneg _
        linarith
      · rw [e2]; exact hNQ
      · have hc : ⌈(u.grid.shape a : ℚ) - 1⌉ = (u.grid.shape a : ℤ) - 1 := by
          rw [show (u.grid.shape a : ℚ) - 1 = ((u.grid.shape a - 1 : ℤ) : ℚ) by push_cast; ring,
            Int.ceil_intCast]
        simp only [BC.axSize, t1, np, if_false, e2, e1, BC.trimLo_one, BC.trimHi,
          show v.grid = u.grid from rfl, hc]
        omega
      · simp only [BC.axLo, t1, np, if_false, e2, BC.trimLo_one]
  rw [BC.trimBoundary_ok bc v (fun a => (key a).1)]
  congr 1
  apply GridArray.ext'
  · funext a; exact (key a).2.1
  · funext i
    show v.data _ = v.data _
    congr 1
    funext a
    rw [(key a).2.2]; simp
  · funext a
    show v.offset a + _ = v.offset a
    rw [(key a).2.2]; simp
  · rfl

section
open Fixtures
-- the hypotheses are met by wall-aligned and cell-centred Dirichlet data and by 2-d periodic data
example : BC.OnGrid bcDir uFace := by
  intro a; fin_cases a
  refine ⟨rfl, by decide, Or.inr (Or.inr ⟨rfl, ?_⟩)⟩
  norm_num [uFace]
example : BC.OnGrid bcPer2 u34 := by
  intro a; fin_cases a <;> exact ⟨rfl, by decide, Or.inl rfl⟩
-- and the upper wall point of `uFace` is really on the wall
example : InR uFace.shape (fun _ => 3) ∧ OnWall bcDir uFace (fun _ => 3) 0 5 := by
  refine ⟨fun a => ⟨by norm_num, by norm_num [uFace]⟩, rfl, Or.inr ⟨?_, rfl⟩⟩
  norm_num [uFace, g4]
example : Trimmable bcDir uFace := by
  intro a; fin_cases a
  refine ⟨by decide, Or.inr ⟨by decide, by decide, Or.inl rfl, ?_, ?_, ?_⟩⟩
  · norm_num [uFace]
  · norm_num [uFace, g4]
  · exact BC.isAligned_face _ _ _ rfl rfl rfl (by decide)
end

end JaxCfd
