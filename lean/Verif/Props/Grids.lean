import Verif.Model.GridCtor
import Verif.Lemmas.Unique
import Verif.Lemmas.Seq
import Verif.Props.Fixtures
import Mathlib.Tactic.FieldSimp
import Mathlib.Tactic.Linarith
import Mathlib.Tactic.Ring
import Mathlib.Tactic.LinearCombination

/-!
# C01-C05: grids, axes, arithmetic and offsets
-/

namespace JaxCfd
variable {d : ℕ} {K : Type}

theorem getD_lt {α : Type} (l : List α) (x : α) {i : ℕ} (h : i < l.length) : l.getD i x = l[i] := by
  rw [List.getD_eq_getElem?_getD, List.getElem?_eq_getElem h]; rfl

/-! ## C01 -/

theorem asPairs_ok (xs : List (List K)) (h : ∀ b ∈ xs, b.length = 2) :
    ∃ l, asPairs xs = .ok l ∧ l.length = xs.length ∧ ∀ i (hi : i < xs.length) (hl : i < l.length),
      xs[i] = [l[i].1, l[i].2] := by
  induction xs with
  | nil => exact ⟨[], rfl, rfl, fun i hi => absurd hi (by simp)⟩
  | cons b xs ih =>
    obtain ⟨l, hl, hlen, hget⟩ := ih (fun c hc => h c (by simp [hc]))
    match b, h b (by simp) with
    | [x, y], _ =>
      refine ⟨(x, y) :: l, ?_, by simp [hlen], ?_⟩
      · unfold asPairs; rw [hl]; rfl
      · intro i hi hi'
        cases i with
        | zero => rfl
        | succ i => simpa using hget i (by simpa using hi) (by simpa using hi')

/-- Domain that `Grid` must have, entry by entry, when `step` is given (`none`: 1). -/
def DomainFromStep [Field K] (shape : List ℕ) (step : StepArg K) (dom : List (K × K)) : Prop :=
  dom.length = shape.length ∧ ∀ i (hi : i < shape.length) (hd : i < dom.length), dom[i] =
    (0, (match step with | .none => 1 | .scalar x => x | .seq xs => xs.getD i 0) * (shape[i] : K))

/-- The constructor's arguments are acceptable. -/
def GoodArgs (shape : List ℕ) : StepArg K → DomainArg K → Prop
  | .none, .seq xs => xs.length = shape.length ∧ ∀ b ∈ xs, b.length = 2
  | .seq xs, .none => xs.length = shape.length
  | .none, _ => True
  | .scalar _, .none => True
  | _, _ => False

/-- **C01** `Grid(shape, step, domain)` succeeds iff not both of step and domain are given, sequences have the length
of the shape, domain entries are pairs, and no size is 0. -/
theorem C01_grid_succeeds_iff [Field K] (shape : List ℕ) (step : StepArg K) (dom : DomainArg K) :
    (∃ g, gridInit shape step dom = .ok g) ↔ GoodArgs shape step dom ∧ 0 ∉ shape := by
  have h1 : (∃ l, gridDomain shape step dom = .ok l) ↔ GoodArgs shape step dom := by
    cases step with
    | none =>
      cases dom with
      | none => simp [gridDomain, GoodArgs]
      | scalar x => simp [gridDomain, GoodArgs]
      | seq xs =>
        simp only [gridDomain, GoodArgs]
        by_cases hl : xs.length = shape.length
        · rw [if_neg (by simpa using hl)]
          by_cases ha : (xs.all fun b => b.length == 2) = false
          · rw [if_pos ha]
            simp only [reduceCtorEq, exists_false, false_iff]
            rintro ⟨-, hh⟩
            have : (xs.all fun b => b.length == 2) = true := by simpa using hh
            rw [this] at ha; cases ha
          · rw [if_neg ha]
            have hh : ∀ b ∈ xs, b.length = 2 := by simpa using ha
            obtain ⟨l, e, -⟩ := asPairs_ok xs hh
            simp [e, hl]
            exact fun b hb => hh b hb
        · rw [if_pos (by simpa using hl)]
          simp [hl]
    | scalar x => cases dom <;> simp [gridDomain, GoodArgs]
    | seq xs =>
      cases dom with
      | none =>
        simp only [gridDomain, GoodArgs]
        by_cases hl : xs.length = shape.length <;> simp [hl]
      | scalar x => simp [gridDomain, GoodArgs]
      | seq ys => simp [gridDomain, GoodArgs]
  rw [← h1]
  unfold gridInit
  constructor
  · rintro ⟨g, hg⟩
    rw [Except.bind_eq_ok] at hg
    obtain ⟨l, hl, hg⟩ := hg
    refine ⟨⟨l, hl⟩, fun h0 => ?_⟩
    rw [if_pos h0] at hg
    cases hg
  · rintro ⟨⟨l, hl⟩, h0⟩
    rw [hl, Except.bind_ok, if_neg h0]
    exact ⟨_, rfl⟩

/-- **C01** The errors: both arguments given is a TypeError (whatever they are), wrong lengths a ValueError. -/
theorem C01_grid_errors [Field K] (shape : List ℕ) :
    (∀ step dom, step ≠ StepArg.none → dom ≠ DomainArg.none →
      gridInit (K := K) shape step dom = .error .type) ∧
    (∀ xs : List K, xs.length ≠ shape.length → gridInit shape (.seq xs) .none = .error .value) ∧
    (∀ xs : List (List K), xs.length ≠ shape.length ∨ (∃ b ∈ xs, b.length ≠ 2) →
      gridInit shape .none (.seq xs) = .error .value) := by
  refine ⟨?_, ?_, ?_⟩
  · intro step dom hs hd
    cases step <;> cases dom <;> first | exact absurd rfl hs | exact absurd rfl hd | rfl
  · intro xs h
    simp only [gridInit, gridDomain]
    rw [if_pos h]; rfl
  · intro xs h
    simp only [gridInit, gridDomain]
    by_cases hl : xs.length ≠ shape.length
    · rw [if_pos hl]; rfl
    · rw [if_neg hl]
      obtain ⟨b, hb, hb2⟩ := h.resolve_left hl
      have : (xs.all fun b => b.length == 2) = false := by
        rw [List.all_eq_false]
        exact ⟨b, hb, by simpa using hb2⟩
      rw [if_pos this]; rfl

/-- **C01** A constructed grid has exactly the given shape, one step and one domain interval per axis, and satisfies
`upper - lower = step * size`; the domain is the given one (a number `x` meaning `(0, x)`) or `(0, step * size)`; a given step
is stored unchanged. -/
theorem C01_grid_invariant [Field K] [CharZero K] (shape : List ℕ) (step : StepArg K) (dom : DomainArg K)
    (g : RawGrid K) (h : gridInit shape step dom = .ok g) :
    g.shape = shape ∧ g.step.length = shape.length ∧ g.domain.length = shape.length ∧
    (∀ i (hs : i < shape.length) (h1 : i < g.step.length) (h2 : i < g.domain.length),
      g.domain[i].2 - g.domain[i].1 = g.step[i] * (shape[i] : K) ∧
      (match dom with
        | .none => g.domain[i].1 = 0
        | .scalar x => g.domain[i] = (0, x)
        | .seq xs => xs[i]? = some [g.domain[i].1, g.domain[i].2]) ∧
      (match step with
        | .none => True
        | .scalar x => g.step[i] = x
        | .seq xs => xs[i]? = some g.step[i])) := by
  have hgood := (C01_grid_succeeds_iff shape step dom).1 ⟨g, h⟩
  unfold gridInit at h
  rw [Except.bind_eq_ok] at h
  obtain ⟨l, hl, h⟩ := h
  rw [if_neg hgood.2, Except.pure_eq_ok] at h
  injection h with h
  have hlen : l.length = shape.length := by
    cases step with
    | none =>
      cases dom with
      | none => simp [gridDomain] at hl; subst hl; simp
      | scalar x => simp [gridDomain] at hl; subst hl; simp
      | seq xs =>
        have hh : ∀ b ∈ xs, b.length = 2 := hgood.1.2
        have hx : xs.length = shape.length := hgood.1.1
        obtain ⟨l', e, e2, -⟩ := asPairs_ok xs hh
        simp only [gridDomain] at hl
        rw [if_neg (by simpa using hx), if_neg (by simpa using hh), e] at hl
        injection hl with hl
        subst hl; omega
    | scalar x =>
      cases dom with
      | none => simp [gridDomain] at hl; subst hl; simp
      | scalar x => exact absurd hgood.1 (by simp [GoodArgs])
      | seq xs => exact absurd hgood.1 (by simp [GoodArgs])
    | seq xs =>
      cases dom with
      | none =>
        have hx : xs.length = shape.length := hgood.1
        simp [gridDomain, hx] at hl
        subst hl; simp [hx]
      | scalar x => exact absurd hgood.1 (by simp [GoodArgs])
      | seq xs => exact absurd hgood.1 (by simp [GoodArgs])
  subst h
  refine ⟨rfl, by simp [hlen], hlen, ?_⟩
  intro i hs h1 h2
  have hne : (shape[i] : K) ≠ 0 := by
    have : shape[i] ≠ 0 := fun h0 => hgood.2 (h0 ▸ List.getElem_mem hs)
    exact_mod_cast this
  have hst : (List.zipWith (fun (b : K × K) (n : ℕ) => (b.2 - b.1) / ((n : ℕ) : K)) l shape)[i] =
      (l[i].2 - l[i].1) / (shape[i] : K) := by simp
  refine ⟨?_, ?_, ?_⟩
  · simp only [hst]
    field_simp
  · cases step with
    | none =>
      cases dom with
      | none => simp [gridDomain] at hl; subst hl; simp
      | scalar x => simp [gridDomain] at hl; subst hl; simp
      | seq xs =>
        have hh : ∀ b ∈ xs, b.length = 2 := hgood.1.2
        have hx : xs.length = shape.length := hgood.1.1
        obtain ⟨l', e, e2, e3⟩ := asPairs_ok xs hh
        simp only [gridDomain] at hl
        rw [if_neg (by simpa using hx), if_neg (by simpa using hh), e] at hl
        injection hl with hl
        subst hl
        simp only
        rw [List.getElem?_eq_getElem (by omega), e3 i (by omega) (by omega)]
    | scalar x =>
      cases dom with
      | none => simp [gridDomain] at hl; subst hl; simp
      | scalar x => exact absurd hgood.1 (by simp [GoodArgs])
      | seq xs => exact absurd hgood.1 (by simp [GoodArgs])
    | seq xs =>
      cases dom with
      | none =>
        have hx : xs.length = shape.length := hgood.1
        simp [gridDomain, hx] at hl
        subst hl; simp
      | scalar x => exact absurd hgood.1 (by simp [GoodArgs])
      | seq xs => exact absurd hgood.1 (by simp [GoodArgs])
  · cases step with
    | none => trivial
    | scalar x =>
      cases dom with
      | none =>
        simp [gridDomain] at hl; subst hl
        simp [hne]
      | scalar x => exact absurd hgood.1 (by simp [GoodArgs])
      | seq xs => exact absurd hgood.1 (by simp [GoodArgs])
    | seq xs =>
      cases dom with
      | none =>
        have hx : xs.length = shape.length := hgood.1
        simp [gridDomain, hx] at hl
        subst hl
        simp only [hst]
        rw [List.getElem?_eq_getElem (by omega)]
        simp [hne]
      | scalar x => exact absurd hgood.1 (by simp [GoodArgs])
      | seq xs => exact absurd hgood.1 (by simp [GoodArgs])

/-- **C06** A grid variable is accepted iff its boundary condition has one entry per grid dimension. -/
theorem C06_variable_rank_check (t : List (BCType × BCType)) (s : List ℕ) :
    (variableRankCheck t s = .ok () ↔ t.length = s.length) ∧
    (variableRankCheck t s = .error .value ↔ t.length ≠ s.length) := by
  unfold variableRankCheck
  by_cases h : t.length = s.length <;> simp [h]

/-! ## C02 -/

/-- **C02** `axes` raises exactly on an offset of the wrong length. -/
theorem C02_axes_error_iff [Field K] (g : Grid d K) (o : List K) :
    (g.axes (some o) = .error .value ↔ o.length ≠ d) ∧ ((∃ r, g.axes (some o) = .ok r) ↔ o.length = d) ∧
    ∃ r, g.axes none = .ok r := by
  unfold Grid.axes
  by_cases h : o.length = d <;> simp [h]

/-- **C02** Axis `a` has `shape[a]` entries, the i-th being `lower + (i + offset) * step`. -/
theorem C02_axes_points [Field K] (g : Grid d K) (o : Option (List K)) (r : Fin d → List K)
    (h : g.axes o = .ok r) (a : Fin d) :
    (r a).length = g.shape a ∧ ∀ (i : ℕ) (hi : i < (r a).length),
      (r a)[i] = (g.domain a).1 + ((i : K) + (o.getD (List.replicate d (1 / 2))).getD a 0) *
        (((g.domain a).2 - (g.domain a).1) / (g.shape a : K)) := by
  unfold Grid.axes at h
  dsimp only at h
  split at h
  · cases h
  · injection h with h
    subst h
    refine ⟨by simp, fun i hi => by simp [Grid.step]⟩

section order
variable [Field K] [LinearOrder K] [IsStrictOrderedRing K]

/-- **C02** The points are strictly increasing when `upper > lower`. -/
theorem C02_axes_increasing (g : Grid d K) (o : Option (List K)) (r : Fin d → List K)
    (h : g.axes o = .ok r) (a : Fin d) (hdom : (g.domain a).1 < (g.domain a).2)
    (i j : ℕ) (hi : i < (r a).length) (hj : j < (r a).length) (hij : i < j) : (r a)[i] < (r a)[j] := by
  obtain ⟨hlen, hp⟩ := C02_axes_points g o r h a
  rw [hp i hi, hp j hj]
  have hn : (0 : K) < g.shape a := by
    have : 0 < g.shape a := by omega
    exact_mod_cast this
  have hs : 0 < ((g.domain a).2 - (g.domain a).1) / (g.shape a : K) := div_pos (by linarith) hn
  have : (i : K) < j := by exact_mod_cast hij
  have := mul_lt_mul_of_pos_right this hs
  linarith [add_mul (i : K) ((o.getD (List.replicate d (1 / 2))).getD a 0) (((g.domain a).2 - (g.domain a).1) / (g.shape a : K)),
    add_mul (j : K) ((o.getD (List.replicate d (1 / 2))).getD a 0) (((g.domain a).2 - (g.domain a).1) / (g.shape a : K))]

/-- **C02** For an offset in [0, 1] all points lie in the closed domain. -/
theorem C02_axes_in_domain (g : Grid d K) (o : List K) (r : Fin d → List K)
    (h : g.axes (some o) = .ok r) (a : Fin d) (hdom : (g.domain a).1 ≤ (g.domain a).2)
    (h0 : 0 ≤ o.getD a 0) (h1 : o.getD a 0 ≤ 1) (i : ℕ) (hi : i < (r a).length) :
    (g.domain a).1 ≤ (r a)[i] ∧ (r a)[i] ≤ (g.domain a).2 := by
  obtain ⟨hlen, hp⟩ := C02_axes_points g _ r h a
  rw [hp i hi]
  have hn : (0 : K) < g.shape a := by
    have : 0 < g.shape a := by omega
    exact_mod_cast this
  simp only [Option.getD_some]
  set q := o.getD a 0
  set L := (g.domain a).2 - (g.domain a).1 with hL
  have hLn : 0 ≤ L := by linarith
  have hiK : (i : K) + 1 ≤ g.shape a := by
    have : i + 1 ≤ g.shape a := by omega
    exact_mod_cast this
  have hi0 : (0 : K) ≤ i := Nat.cast_nonneg i
  constructor
  · have : 0 ≤ ((i : K) + q) * (L / (g.shape a : K)) := mul_nonneg (by linarith) (div_nonneg hLn hn.le)
    linarith
  · have : ((i : K) + q) * (L / (g.shape a : K)) ≤ L := by
      rw [← mul_div_assoc, div_le_iff₀ hn]
      nlinarith
    linarith

/-- **C02** Cell centres (the default offset) are placed symmetrically: the i-th from below and the i-th from above are
equally far from the two ends. -/
theorem C02_cell_centers_symmetric (g : Grid d K) (r : Fin d → List K) (h : g.axes none = .ok r) (a : Fin d)
    (i : ℕ) (hi : i < (r a).length) (hi' : g.shape a - 1 - i < (r a).length) :
    (r a)[i] - (g.domain a).1 = (g.domain a).2 - (r a)[g.shape a - 1 - i] := by
  obtain ⟨hlen, hp⟩ := C02_axes_points g _ r h a
  rw [hp i hi, hp _ hi']
  have hn : (0 : K) < g.shape a := by
    have : 0 < g.shape a := by omega
    exact_mod_cast this
  have hc : ((g.shape a - 1 - i : ℕ) : K) = (g.shape a : K) - 1 - i := by
    rw [Nat.cast_sub (by omega), Nat.cast_sub (by omega)]; norm_num
  have hrep : (List.replicate d (1 / 2 : K)).getD a 0 = 1 / 2 := by
    rw [List.getD_eq_getElem?_getD, List.getElem?_replicate, if_pos a.2]; rfl
  simp only [Option.getD_none, hrep, hc]
  field_simp
  ring

end order

/-- **C02** `mesh()[n][i,j,..]` is the `i_n`-th entry of axis `n`, in arrays of the grid's shape. -/
theorem C02_mesh [Field K] (g : Grid d K) (o : Option (List K)) (m : Fin d → NArr d K) (h : g.mesh o = .ok m) :
    ∃ r, g.axes o = .ok r ∧ ∀ n, (m n).shape = g.shape ∧ ∀ i, InR g.shape i →
      (r n)[(i n).toNat]? = some ((m n).data i) := by
  unfold Grid.mesh at h
  rw [Except.bind_eq_ok] at h
  obtain ⟨r, hr, h⟩ := h
  injection h with h
  subst h
  refine ⟨r, hr, fun n => ⟨rfl, fun i hi => ?_⟩⟩
  have hlen := (C02_axes_points g o r hr n).1
  have := hi n
  rw [List.getElem?_eq_getElem (by omega)]
  simp only
  rw [getD_lt _ _ (by omega)]

/-- **C02** `eval_on_mesh(fn, offset)` holds `fn` at the position of every grid point, with that offset. -/
theorem C02_eval_on_mesh [Field K] [CharZero K] (g : Grid d K) (fn : (Fin d → K) → K) (o : Fin d → ℚ) :
    ∃ u, g.evalOnMesh fn o = .ok u ∧ u.offset = o ∧ u.grid = g ∧ u.shape = g.shape ∧
      ∀ i, InR g.shape i → u.data i =
        fn fun a => (g.domain a).1 + ((i a : K) + (o a : K)) * g.step a := by
  have hax : g.axes (some (List.ofFn fun a => (o a : K))) = .ok fun a => (List.range (g.shape a)).map fun i : ℕ =>
      (g.domain a).1 + ((i : K) + (List.ofFn fun a => (o a : K)).getD a 0) * g.step a := by
    unfold Grid.axes; simp
  unfold Grid.evalOnMesh Grid.mesh
  rw [hax]
  refine ⟨_, rfl, rfl, rfl, rfl, fun i hi => ?_⟩
  simp only
  congr 1
  funext a
  have := hi a
  rw [getD_lt _ _ (by simp; omega)]
  have hc : (((i a).toNat : ℕ) : K) = (i a : K) := by
    have : (((i a).toNat : ℕ) : ℤ) = i a := by omega
    exact_mod_cast congrArg (Int.cast (R := K)) this
  simp [hc]

/-- **C02** `domain_interior_masks()[j]` is 0 exactly on the faces lying on the (upper) domain boundary normal to axis `j`,
and 1 on all other cell faces. -/
theorem C02_domain_interior_masks [Field K] [CharZero K] [DecidableEq K] (g : Grid d K)
    (hdom : ∀ a, (g.domain a).1 ≠ (g.domain a).2) :
    ∃ m, domainInteriorMasks g = .ok m ∧ ∀ j, (m j).shape = g.shape ∧ ∀ i, InR g.shape i →
      (m j).data i = if i j = (g.shape j : ℤ) - 1 then 0 else 1 := by
  have hax : ∀ j, g.axes (some (List.ofFn fun a : Fin d => ((if a = j then 1 else 0) + 1) / 2)) =
      .ok fun a => (List.range (g.shape a)).map fun i : ℕ =>
      (g.domain a).1 + ((i : K) + (List.ofFn fun a : Fin d => (((if a = j then 1 else 0) + 1) / 2 : K)).getD a 0) * g.step a := by
    intro j; unfold Grid.axes; simp
  unfold domainInteriorMasks Grid.mesh
  simp only [hax, Except.bind_ok, Except.pure_eq_ok]
  refine ⟨_, seqFin_ok _ _ (fun j => rfl), fun j => ⟨rfl, fun i hi => ?_⟩⟩
  simp only
  have hval : ∀ a, ((List.range (g.shape a)).map fun i : ℕ => (g.domain a).1 + ((i : K) +
      (List.ofFn fun a : Fin d => (((if a = j then 1 else 0) + 1) / 2 : K)).getD a 0) * g.step a).getD (i a).toNat 0 =
      (g.domain a).1 + ((i a : K) + ((if a = j then 1 else 0) + 1) / 2) * g.step a := by
    intro a
    have := hi a
    rw [getD_lt _ _ (by simp; omega)]
    have hc : (((i a).toNat : ℕ) : K) = (i a : K) := by
      have : (((i a).toNat : ℕ) : ℤ) = i a := by omega
      exact_mod_cast congrArg (Int.cast (R := K)) this
    simp [hc]
  simp only [hval]
  have hfac : ∀ a, ((if (g.domain a).1 + ((i a : K) + ((if a = j then 1 else 0) + 1) / 2) * g.step a = (g.domain a).2 then (0 : K) else 1) *
      (if (g.domain a).1 + ((i a : K) + ((if a = j then 1 else 0) + 1) / 2) * g.step a = (g.domain a).1 then (0 : K) else 1)) =
      if a = j ∧ i j = (g.shape j : ℤ) - 1 then 0 else 1 := by
    intro a
    have hia := hi a
    have hn : (g.shape a : K) ≠ 0 := by
      have : g.shape a ≠ 0 := by omega
      exact_mod_cast this
    have hL : (g.domain a).2 - (g.domain a).1 ≠ 0 := fun h => hdom a (by linear_combination -h)
    have hst : g.step a ≠ 0 := div_ne_zero hL hn
    -- the doubled position is an integer
    have e2 : (g.domain a).1 + ((i a : K) + ((if a = j then 1 else 0) + 1) / 2) * g.step a = (g.domain a).2 ↔
        a = j ∧ i j = (g.shape j : ℤ) - 1 := by
      have : (g.domain a).2 = (g.domain a).1 + (g.shape a : K) * g.step a := by
        unfold Grid.step; field_simp; ring
      rw [this, add_right_inj, mul_left_inj' hst]
      by_cases haj : a = j
      · subst haj
        simp only [if_true, true_and]
        rw [show ((1 : K) + 1) / 2 = 1 by norm_num]
        constructor
        · intro h
          have : ((i a + 1 : ℤ) : K) = ((g.shape a : ℤ) : K) := by push_cast; exact h
          have := Int.cast_injective this
          omega
        · intro h; rw [h]; push_cast; ring
      · simp only [haj, if_false, false_and, iff_false]
        intro h
        have h2 : ((2 * i a + 1 : ℤ) : K) = ((2 * g.shape a : ℤ) : K) := by
          push_cast; linear_combination 2 * h
        have := Int.cast_injective h2
        omega
    have e1 : ¬ (g.domain a).1 + ((i a : K) + ((if a = j then 1 else 0) + 1) / 2) * g.step a = (g.domain a).1 := by
      intro h
      have h3 : ((i a : K) + ((if a = j then 1 else 0) + 1) / 2) * g.step a = 0 := by linear_combination h
      have h4 := (mul_eq_zero.1 h3).resolve_right hst
      by_cases haj : a = j
      · simp only [haj, if_true] at h4
        have : ((i j + 1 : ℤ) : K) = ((0 : ℤ) : K) := by push_cast; linear_combination h4
        have := Int.cast_injective this
        subst haj; omega
      · simp only [haj, if_false] at h4
        have : ((2 * i a + 1 : ℤ) : K) = ((0 : ℤ) : K) := by push_cast; linear_combination 2 * h4
        have := Int.cast_injective this
        omega
    rw [if_neg e1, mul_one]
    exact if_congr e2 rfl rfl
  simp only [hfac]
  by_cases hj : i j = (g.shape j : ℤ) - 1
  · rw [if_pos hj]
    apply List.prod_eq_zero
    rw [List.mem_map]
    exact ⟨j, List.mem_finRange j, by simp [hj]⟩
  · simp [hj]

/-! ## C03, C04 -/

/-- **C04** `consistent_offset`, `consistent_grid` and `unique_boundary_conditions` return `v` iff there is at least one
argument and all arguments carry `v`; otherwise each raises its own error. -/
theorem C04_unique [DecidableEq K] (us : List (GridArray d K)) (vs : List (GridVariable d K)) :
    (∀ o, consistentOffset us = .ok o ↔ us ≠ [] ∧ ∀ u ∈ us, u.offset = o) ∧
    (∀ g, consistentGrid us = .ok g ↔ us ≠ [] ∧ ∀ u ∈ us, u.grid = g) ∧
    (∀ b, uniqueBoundaryConditions vs = .ok b ↔ vs ≠ [] ∧ ∀ v ∈ vs, v.bc = b) ∧
    (∀ e, consistentOffset us = .error e → e = .offset) ∧ (∀ e, consistentGrid us = .error e → e = .grid) ∧
    (∀ e, uniqueBoundaryConditions vs = .error e → e = .bc) :=
  ⟨fun _ => uniqueOr_eq_ok, fun _ => uniqueOr_eq_ok, fun _ => uniqueOr_eq_ok,
    fun _ h => (uniqueOr_eq_error h).1, fun _ h => (uniqueOr_eq_error h).1, fun _ h => (uniqueOr_eq_error h).1⟩

/-- **C04** The outcome (value or error) depends only on the set of arguments, not on order or multiplicity. -/
theorem C04_unique_set [DecidableEq K] (us us' : List (GridArray d K)) (h : ∀ u, u ∈ us ↔ u ∈ us') :
    consistentOffset us = consistentOffset us' ∧ consistentGrid us = consistentGrid us' := by
  have hnil : us = [] ↔ us' = [] := by
    rw [List.eq_nil_iff_forall_not_mem, List.eq_nil_iff_forall_not_mem]
    simp [h]
  have key : ∀ {β : Type} [DecidableEq β] (err : Err) (f : GridArray d K → β),
      uniqueOr err f us = uniqueOr err f us' := by
    intro β _ err f
    cases h1 : uniqueOr err f us with
    | ok b =>
      rw [uniqueOr_eq_ok] at h1
      symm
      rw [uniqueOr_eq_ok]
      exact ⟨fun hh => h1.1 (hnil.2 hh), fun x hx => h1.2 x ((h x).2 hx)⟩
    | error e =>
      cases h2 : uniqueOr err f us' with
      | ok b =>
        rw [uniqueOr_eq_ok] at h2
        have : uniqueOr err f us = .ok b :=
          uniqueOr_eq_ok.2 ⟨fun hh => h2.1 (hnil.1 hh), fun x hx => h2.2 x ((h x).1 hx)⟩
        rw [this] at h1; cases h1
      | error e' => rw [(uniqueOr_eq_error h1).1, (uniqueOr_eq_error h2).1]
  exact ⟨key _ _, key _ _⟩

theorem mem_arrays {args : List (UArg d K)} {u : GridArray d K} : u ∈ UArg.arrays args ↔ .array u ∈ args := by
  unfold UArg.arrays
  rw [List.mem_filterMap]
  constructor
  · rintro ⟨a, ha, h⟩
    cases a with
    | array w => simp at h; subst h; exact ha
    | var w => simp at h
    | raw x => simp at h
  · intro h
    exact ⟨_, h, rfl⟩

/-- The GridArrays among the arguments share offset `o` and grid `g` (and there is at least one). -/
def CommonFrame (args : List (UArg d K)) (o : Fin d → ℚ) (g : Grid d K) : Prop :=
  (∃ u, UArg.array u ∈ args) ∧ ∀ u, UArg.array u ∈ args → u.offset = o ∧ u.grid = g

theorem elementwise_ok [Zero K] (f : List K → K) (args : List (UArg d K)) (s : Fin d → ℕ)
    (hne : ∃ u, UArg.array u ∈ args) (hs : ∀ u, UArg.array u ∈ args → u.shape = s) :
    elementwise f args = .ok ⟨s, fun i => f (args.map (UArg.value i))⟩ := by
  unfold elementwise
  obtain ⟨u, hu⟩ := hne
  have : uniqueOr Err.type (fun u : GridArray d K => u.shape) (UArg.arrays args) = .ok s :=
    uniqueOr_eq_ok.2 ⟨List.ne_nil_of_mem (mem_arrays.2 hu), fun w hw => hs w (mem_arrays.1 hw)⟩
  rw [this]; rfl

/-- **C03** A ufunc or `applied` function on arguments of one shape without GridVariables succeeds exactly when all
GridArray arguments have one common offset and grid; the result then carries that offset and grid, and its entries are
the function of the arguments' entries. -/
theorem C03_ufunc_ok_iff [Zero K] [DecidableEq K] (f : List K → K) (args : List (UArg d K)) (s : Fin d → ℕ)
    (hv : ∀ v, UArg.var v ∉ args) (hs : ∀ u, UArg.array u ∈ args → u.shape = s) (r : GridArray d K) :
    (arrayUfunc f args = .ok r ↔ CommonFrame args r.offset r.grid ∧
      r.toNArr = ⟨s, fun i => f (args.map (UArg.value i))⟩) ∧
    (applied f args = .ok r ↔ CommonFrame args r.offset r.grid ∧
      r.toNArr = ⟨s, fun i => f (args.map (UArg.value i))⟩) := by
  have hnv : (args.any UArg.isVariable) = false := by
    rw [List.any_eq_false]
    intro a ha
    cases a with
    | var v => exact absurd ha (hv v)
    | array u => simp [UArg.isVariable]
    | raw x => simp [UArg.isVariable]
  have hfr : ∀ o g, CommonFrame args o g ↔
      (consistentOffset (UArg.arrays args) = .ok o ∧ consistentGrid (UArg.arrays args) = .ok g) := by
    intro o g
    unfold CommonFrame consistentOffset consistentGrid
    rw [uniqueOr_eq_ok, uniqueOr_eq_ok]
    constructor
    · rintro ⟨⟨u, hu⟩, h⟩
      have hne := List.ne_nil_of_mem (mem_arrays.2 hu)
      exact ⟨⟨hne, fun w hw => (h w (mem_arrays.1 hw)).1⟩, hne, fun w hw => (h w (mem_arrays.1 hw)).2⟩
    · rintro ⟨⟨hne, h1⟩, -, h2⟩
      obtain ⟨u, hu⟩ := List.exists_mem_of_ne_nil _ hne
      exact ⟨⟨u, mem_arrays.1 hu⟩, fun w hw => ⟨h1 w (mem_arrays.2 hw), h2 w (mem_arrays.2 hw)⟩⟩
  constructor
  · unfold arrayUfunc
    rw [hnv]
    simp only [Bool.false_eq_true, if_false]
    rw [Except.bind_eq_ok]
    constructor
    · rintro ⟨x, hx, h⟩
      rw [Except.bind_eq_ok] at h
      obtain ⟨o, ho, h⟩ := h
      rw [Except.bind_eq_ok] at h
      obtain ⟨g, hg, h⟩ := h
      injection h with h
      subst h
      have hc := (hfr o g).2 ⟨ho, hg⟩
      refine ⟨hc, ?_⟩
      rw [elementwise_ok f args s hc.1 hs] at hx
      injection hx with hx
      exact hx.symm
    · rintro ⟨hc, hd⟩
      refine ⟨_, elementwise_ok f args s hc.1 hs, ?_⟩
      obtain ⟨ho, hg⟩ := (hfr _ _).1 hc
      rw [ho, Except.bind_ok, hg, Except.bind_ok, ← hd]
      rfl
  · unfold applied
    rw [hnv]
    simp only [Bool.false_eq_true, if_false]
    rw [Except.bind_eq_ok]
    constructor
    · rintro ⟨o, ho, h⟩
      rw [Except.bind_eq_ok] at h
      obtain ⟨g, hg, h⟩ := h
      rw [Except.bind_eq_ok] at h
      obtain ⟨x, hx, h⟩ := h
      injection h with h
      subst h
      have hc := (hfr o g).2 ⟨ho, hg⟩
      refine ⟨hc, ?_⟩
      rw [elementwise_ok f args s hc.1 hs] at hx
      injection hx with hx
      exact hx.symm
    · rintro ⟨hc, hd⟩
      obtain ⟨ho, hg⟩ := (hfr _ _).1 hc
      refine ⟨_, ho, ?_⟩
      rw [hg, Except.bind_ok, elementwise_ok f args s hc.1 hs, Except.bind_ok, ← hd]
      rfl

/-- **C03** Which error: mixed offsets raise InconsistentOffsetError whatever the grids; equal offsets but mixed grids
raise InconsistentGridError; any GridVariable makes `applied` raise ValueError. -/
theorem C03_ufunc_errors [Zero K] [DecidableEq K] (f : List K → K) (args : List (UArg d K)) (s : Fin d → ℕ)
    (hs : ∀ u, UArg.array u ∈ args → u.shape = s) :
    ((∃ v, UArg.var v ∈ args) → applied f args = .error .value) ∧
    ((∀ v, UArg.var v ∉ args) →
      ((∃ u w, UArg.array u ∈ args ∧ UArg.array w ∈ args ∧ u.offset ≠ w.offset) →
        applied f args = .error .offset ∧ arrayUfunc f args = .error .offset) ∧
      ((∀ u w, UArg.array u ∈ args → UArg.array w ∈ args → u.offset = w.offset) →
        (∃ u w, UArg.array u ∈ args ∧ UArg.array w ∈ args ∧ u.grid ≠ w.grid) →
        applied f args = .error .grid ∧ arrayUfunc f args = .error .grid)) := by
  refine ⟨?_, fun hv => ?_⟩
  · rintro ⟨v, hv⟩
    unfold applied
    rw [if_pos]
    rw [List.any_eq_true]
    exact ⟨_, hv, rfl⟩
  · have hnv : (args.any UArg.isVariable) = false := by
      rw [List.any_eq_false]
      intro a ha
      cases a with
      | var v => exact absurd ha (hv v)
      | array u => simp [UArg.isVariable]
      | raw x => simp [UArg.isVariable]
    have hbad : ∀ {β : Type} [DecidableEq β] (err : Err) (p : GridArray d K → β),
        (∃ u w, UArg.array u ∈ args ∧ UArg.array w ∈ args ∧ p u ≠ p w) →
        uniqueOr err p (UArg.arrays args) = .error err := by
      rintro β _ err p ⟨u, w, hu, hw, hne⟩
      cases h : uniqueOr err p (UArg.arrays args) with
      | ok b =>
        rw [uniqueOr_eq_ok] at h
        exact absurd ((h.2 u (mem_arrays.2 hu)).trans (h.2 w (mem_arrays.2 hw)).symm) hne
      | error e => rw [(uniqueOr_eq_error h).1]
    constructor
    · intro h
      have h1 : consistentOffset (UArg.arrays args) = .error .offset := hbad _ _ h
      obtain ⟨u, w, hu, -⟩ := h
      unfold applied arrayUfunc
      rw [hnv, h1, elementwise_ok f args s ⟨u, hu⟩ hs]
      exact ⟨rfl, rfl⟩
    · intro ho h
      have h2 : consistentGrid (UArg.arrays args) = .error .grid := hbad _ _ h
      obtain ⟨u, w, hu, -⟩ := h
      have h1 : consistentOffset (UArg.arrays args) = .ok u.offset :=
        uniqueOr_eq_ok.2 ⟨List.ne_nil_of_mem (mem_arrays.2 hu), fun x hx => ho x u (mem_arrays.1 hx) hu⟩
      unfold applied arrayUfunc
      rw [hnv, h1, elementwise_ok f args s ⟨u, hu⟩ hs, h2]
      exact ⟨rfl, rfl⟩

/-! ## C05 -/

/-- **C05** `control_volume_offsets(c)[j]` is the offset of `c` moved by one half along `j` only; `cell_faces[j]` is the
j-th control-volume face of the cell centre. -/
theorem C05_control_volume_offsets (c : GridArray d K) (j : Fin d) :
    controlVolumeOffsets c j = Function.update c.offset j (c.offset j + 1 / 2) ∧
    (c.offset = c.grid.cellCenter → controlVolumeOffsets c j = c.grid.cellFaces j) ∧
    c.grid.cellFaces j j = 1 ∧ ∀ i ≠ j, c.grid.cellFaces j i = 1 / 2 := by
  refine ⟨?_, fun h => ?_, by simp [Grid.cellFaces], fun i hi => by simp [Grid.cellFaces, hi]⟩
  · funext i
    unfold controlVolumeOffsets
    by_cases h : i = j
    · subst h; simp
    · simp [h]
  · funext i
    unfold controlVolumeOffsets
    rw [h]
    by_cases hi : i = j <;> simp [hi, Grid.cellFaces, Grid.cellCenter]
    norm_num

/-- **C05** `averaged_offset` is the mean: `n` times it is the sum of the offsets; of equal offsets it is that offset. -/
theorem C05_averaged_offset (us : List (GridArray d K)) (hne : us ≠ []) (a : Fin d) :
    (us.length : ℚ) * averagedOffset us a = (us.map fun u => u.offset a).sum ∧
    (∀ o : Fin d → ℚ, (∀ u ∈ us, u.offset = o) → averagedOffset us = o) := by
  have hl : (us.length : ℚ) ≠ 0 := by
    have : us.length ≠ 0 := fun h => hne (List.length_eq_zero_iff.1 h)
    exact_mod_cast this
  refine ⟨by unfold averagedOffset; field_simp, fun o ho => ?_⟩
  funext b
  unfold averagedOffset
  have : (us.map fun u => u.offset b) = List.replicate us.length (o b) := by
    rw [List.eq_replicate_iff]
    refine ⟨by simp, fun x hx => ?_⟩
    rw [List.mem_map] at hx
    obtain ⟨u, hu, rfl⟩ := hx
    rw [ho u hu]
  rw [this, List.sum_replicate, nsmul_eq_mul]
  field_simp

section
open Fixtures
example : GoodArgs [3, 4] (K := ℚ) .none (.seq [[0, 3], [0, 2]]) ∧ 0 ∉ [3, 4] := by simp [GoodArgs]
example : GoodArgs [3, 4] (K := ℚ) (.seq [1, 1 / 2]) .none := rfl
example : ∃ r, g34.axes (some [1, 1 / 2]) = .ok r := ((C02_axes_error_iff g34 [1, 1 / 2]).2.1).2 rfl
example : ∀ a, (g34.domain a).1 < (g34.domain a).2 := by intro a; fin_cases a <;> norm_num [g34]
example : CommonFrame [.array u34, .raw 2, .array u34] u34.offset u34.grid :=
  ⟨⟨u34, by simp⟩, fun u hu => by simp at hu; subst hu; exact ⟨rfl, rfl⟩⟩
example : uCenter.offset ≠ uFace.offset := by
  intro h
  have := congrFun h 0
  norm_num [uCenter, uFace] at this
end

end JaxCfd
