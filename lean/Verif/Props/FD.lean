import Verif.Lemmas.FD
import Verif.Props.Fixtures
import Mathlib.Algebra.Order.Field.Basic
import Mathlib.Algebra.BigOperators.Field
import Mathlib.Algebra.Order.BigOperators.Ring.Finset
import Mathlib.Tactic.Positivity

/-!
# Property theorems: finite differences (C05, C17-C21)

`GridVariable.Periodic`, `rollIdx` (the cyclic neighbour of a cell) and `inner` (`sum(x * y)`) are defined in `Spec.lean`.
-/

set_option linter.unusedSectionVars false

namespace JaxCfd

variable {d : ℕ} {K : Type} [Field K] [HasNan K] [DecidableEq K]

/-! ## C05: where the difference operators put their result -/

/-- **C05** Under any boundary conditions, a forward / backward / central difference that succeeds lives half a cell
above / half a cell below / at the offset of its input, with the grid and the shape of the input. -/
theorem C05_difference_offsets (u : GridVariable d K) (ax : Fin d)
    (hpos : 0 < u.array.grid.shape ax) (ho : u.array.offset ax ≤ u.array.grid.shape ax) :
    (∀ r, forwardDifference u ax = .ok r → r.grid = u.array.grid ∧ r.shape = u.array.shape ∧
      ∀ a, r.offset a = if a = ax then u.array.offset a + 1 / 2 else u.array.offset a) ∧
    (∀ r, backwardDifference u ax = .ok r → r.grid = u.array.grid ∧ r.shape = u.array.shape ∧
      ∀ a, r.offset a = if a = ax then u.array.offset a - 1 / 2 else u.array.offset a) ∧
    (∀ r, centralDifference u ax = .ok r → r.grid = u.array.grid ∧ r.shape = u.array.shape ∧
      r.offset = u.array.offset) := by
  refine ⟨fun r h => ?_, fun r h => ?_, fun r h => ?_⟩
  · have h' := h
    unfold forwardDifference at h'
    obtain ⟨p, hp, -⟩ := Except.bind_eq_ok.1 h'
    obtain ⟨s1, s2, s3⟩ := BC.shift_spec hp ho hpos
    rw [forwardDifference_of_shift hp s2 s1 (by simpa using s3)] at h
    injection h with h; subst h
    refine ⟨rfl, rfl, fun a => ?_⟩
    by_cases e : a = ax
    · subst e; simp
    · simp [e]
  · have h' := h
    unfold backwardDifference at h'
    obtain ⟨p, hp, -⟩ := Except.bind_eq_ok.1 h'
    obtain ⟨s1, s2, s3⟩ := BC.shift_spec hp ho hpos
    rw [backwardDifference_of_shift hp s2 s1 (by simpa [sub_eq_add_neg] using s3)] at h
    injection h with h; subst h
    refine ⟨rfl, rfl, fun a => ?_⟩
    by_cases e : a = ax
    · subst e; simp
    · simp [e]
  · have h' := h
    unfold centralDifference at h'
    obtain ⟨p, hp, h'⟩ := Except.bind_eq_ok.1 h'
    obtain ⟨m, hm, -⟩ := Except.bind_eq_ok.1 h'
    obtain ⟨s1, s2, s3⟩ := BC.shift_spec hp ho hpos
    obtain ⟨t1, t2, t3⟩ := BC.shift_spec hm ho hpos
    rw [centralDifference_of_shift hp hm s2 s1 (by simpa using s3) t2 t1
      (by simpa [sub_eq_add_neg] using t3)] at h
    injection h with h; subst h
    exact ⟨rfl, rfl, rfl⟩

/-! ## Pointwise meaning of the operators on periodic variables -/

/-- **C20** On a periodic variable all difference operators succeed and are the textbook stencils: with `u⁺`, `u⁻` the
values at the cyclic neighbours, `(u⁺ - u)/h`, `(u - u⁻)/h`, `(u⁺ - u⁻)/2h` and `Σ (u⁺ + u⁻ - 2u)/h²`. -/
theorem C20_stencils (u : GridVariable d K) (hu : u.Periodic) (ax : Fin d) :
    (∃ r, forwardDifference u ax = .ok r ∧ ∀ i : Idx d, r.data i =
      (u.array.data (rollIdx u.array.grid.shape ax 1 i) - u.array.data i) / u.array.grid.step ax) ∧
    (∃ r, backwardDifference u ax = .ok r ∧ ∀ i : Idx d, r.data i =
      (u.array.data i - u.array.data (rollIdx u.array.grid.shape ax (-1) i)) / u.array.grid.step ax) ∧
    (∃ r, centralDifference u ax = .ok r ∧ ∀ i : Idx d, r.data i =
      (u.array.data (rollIdx u.array.grid.shape ax 1 i) - u.array.data (rollIdx u.array.grid.shape ax (-1) i)) /
        (2 * u.array.grid.step ax)) ∧
    (∃ r, laplacian u = .ok r ∧ r.offset = u.array.offset ∧ ∀ i : Idx d, r.data i =
      ∑ a, (u.array.data (rollIdx u.array.grid.shape a 1 i) + u.array.data (rollIdx u.array.grid.shape a (-1) i) -
        2 * u.array.data i) / u.array.grid.step a ^ 2) := by
  have hs : u.array.grid.shape = u.array.shape := funext fun a => ((hu.2 a).1).symm
  rw [hs]
  exact ⟨⟨_, forwardDifference_periodic hu ax, fun _ => rfl⟩,
    ⟨_, backwardDifference_periodic hu ax, fun _ => rfl⟩,
    ⟨_, centralDifference_periodic hu ax, fun _ => rfl⟩, ⟨_, laplacian_periodic hu, rfl, fun _ => rfl⟩⟩

/-! ## C17: telescoping -/

/-- **C17** Forward, backward and central differences and the laplacian of a periodic variable sum to zero. -/
theorem C17_differences_sum_zero (u : GridVariable d K) (hu : u.Periodic) (ax : Fin d) :
    (∀ r, forwardDifference u ax = .ok r → r.toNArr.sum = 0) ∧
    (∀ r, backwardDifference u ax = .ok r → r.toNArr.sum = 0) ∧
    (∀ r, centralDifference u ax = .ok r → r.toNArr.sum = 0) ∧
    (∀ r, laplacian u = .ok r → r.toNArr.sum = 0) := by
  refine ⟨fun r h => ?_, fun r h => ?_, fun r h => ?_, fun r h => ?_⟩
  · rw [forwardDifference_periodic hu ax] at h
    injection h with h; subst h
    simp only [NArr.sum]
    rw [← Finset.sum_div, Finset.sum_sub_distrib, sum_roll, sub_self, zero_div]
  · rw [backwardDifference_periodic hu ax] at h
    injection h with h; subst h
    simp only [NArr.sum]
    rw [← Finset.sum_div, Finset.sum_sub_distrib, sum_roll, sub_self, zero_div]
  · rw [centralDifference_periodic hu ax] at h
    injection h with h; subst h
    simp only [NArr.sum]
    rw [← Finset.sum_div, Finset.sum_sub_distrib, sum_roll, sum_roll, sub_self, zero_div]
  · rw [laplacian_periodic hu] at h
    injection h with h; subst h
    simp only [NArr.sum]
    rw [Finset.sum_comm]
    refine Finset.sum_eq_zero fun a _ => ?_
    rw [← Finset.sum_div, Finset.sum_sub_distrib, Finset.sum_add_distrib, sum_roll, sum_roll,
      ← Finset.mul_sum]
    ring

/-- **C17** (discrete divergence theorem) The divergence of any periodic vector field sums to zero. -/
theorem C17_divergence_sum_zero (v : Fin d → GridVariable d K) (hv : ∀ a, (v a).Periodic)
    (r : GridArray d K) (h : divergence (List.ofFn v) = .ok r) : r.toNArr.sum = 0 := by
  obtain ⟨-, h1, h2⟩ := (divergence_periodic hv).1 h
  simp only [NArr.sum, h2]
  rw [Finset.sum_comm]
  refine Finset.sum_eq_zero fun a _ => ?_
  rw [(h1 a).1, ← Finset.sum_div, Finset.sum_sub_distrib, sum_roll, sub_self, zero_div]

/-- **C17** The divergence of a vector with one periodic component per axis succeeds exactly when the components live on
one grid and on the upper faces of one cell (`offset + ½` along their own axis); other vectors are rejected. -/
theorem C17_divergence_succeeds_iff (hd : d ≠ 0) (v : Fin d → GridVariable d K) (hv : ∀ a, (v a).Periodic) :
    (∃ r, divergence (List.ofFn v) = .ok r) ↔
      ∃ (g : Grid d K) (o : Fin d → ℚ), ∀ a, (v a).array.grid = g ∧
        ∀ b, (v a).array.offset b = if b = a then o b + 1 / 2 else o b := by
  constructor
  · rintro ⟨r, h⟩
    obtain ⟨-, h1, -⟩ := (divergence_periodic hv).1 h
    refine ⟨r.grid, r.offset, fun a => ⟨(h1 a).2.2, fun b => ?_⟩⟩
    rw [← (h1 a).2.1]
    by_cases e : b = a
    · subst e; simp
    · simp [e]
  · rintro ⟨g, o, h⟩
    refine ⟨⟨⟨g.shape, _⟩, o, g⟩, (divergence_periodic hv).2 ⟨hd, fun a => ⟨?_, ?_, (h a).1⟩, rfl⟩⟩
    · funext b; rw [((hv a).2 b).1, (h a).1]
    · funext b
      by_cases e : b = a
      · subst e; simp [(h b).2]
      · simp [e, (h a).2]

/-! ## C18: the laplacian -/

/-- **C18** For a periodic variable, `laplacian(u)` is `divergence(forward_difference(u))` (the gradient components taken
as variables with the boundary conditions of `u`). -/
theorem C18_laplacian_is_div_grad (hd : d ≠ 0) (u : GridVariable d K) (hu : u.Periodic) :
    ∃ g r l, forwardDifferences u = .ok g ∧ divergence (List.ofFn fun a => ⟨g a, u.bc⟩) = .ok r ∧
      laplacian u = .ok l ∧ r.Eqv l := by
  have hp := fun a => fwdP_periodic hu a
  refine ⟨_, ⟨⟨u.array.shape, fun i => ∑ a, ((fwdP u a).data i - (fwdP u a).data (rollIdx u.array.shape a (-1) i)) /
    u.array.grid.step a⟩, u.array.offset, u.array.grid⟩, _, forwardDifferences_periodic hu,
    (divergence_periodic hp).2 ⟨hd, fun a => ⟨rfl, by simp, rfl⟩, rfl⟩, laplacian_periodic hu, rfl, rfl, rfl, ?_⟩
  intro i hi
  dsimp only
  refine Finset.sum_congr rfl fun a _ => ?_
  rw [rollIdx_add, neg_add_cancel, rollIdx_zero hi, ← sub_div, div_div, ← pow_two]
  congr 1; ring

/-- **C18** The periodic laplacian is symmetric: `sum(u * L v) = sum(L u * v)`. -/
theorem C18_laplacian_symmetric (u v : GridVariable d K) (hu : u.Periodic) (hv : v.Periodic)
    (hg : u.array.grid = v.array.grid) (lu lv : GridArray d K)
    (h1 : laplacian u = .ok lu) (h2 : laplacian v = .ok lv) :
    inner u.array.toNArr lv.toNArr = inner lu.toNArr v.array.toNArr := by
  rw [laplacian_periodic hu] at h1
  rw [laplacian_periodic hv] at h2
  injection h1 with h1; subst h1
  injection h2 with h2; subst h2
  have hs : v.array.shape = u.array.shape := by
    funext a; rw [(hu.2 a).1, (hv.2 a).1, hg]
  simp only [inner, hs, hg, Finset.mul_sum, Finset.sum_mul]
  rw [Finset.sum_comm, Finset.sum_comm (s := box u.array.shape)]
  refine Finset.sum_congr rfl fun a _ => ?_
  have e1 : ∀ i, u.array.data i * ((v.array.data (rollIdx u.array.shape a 1 i) +
      v.array.data (rollIdx u.array.shape a (-1) i) - 2 * v.array.data i) / v.array.grid.step a ^ 2) =
      (u.array.data i * v.array.data (rollIdx u.array.shape a 1 i) +
        u.array.data i * v.array.data (rollIdx u.array.shape a (-1) i) -
        2 * (u.array.data i * v.array.data i)) / v.array.grid.step a ^ 2 := fun i => by ring
  have e2 : ∀ i, (u.array.data (rollIdx u.array.shape a 1 i) +
      u.array.data (rollIdx u.array.shape a (-1) i) - 2 * u.array.data i) / v.array.grid.step a ^ 2 * v.array.data i =
      (u.array.data (rollIdx u.array.shape a 1 i) * v.array.data i +
        u.array.data (rollIdx u.array.shape a (-1) i) * v.array.data i -
        2 * (u.array.data i * v.array.data i)) / v.array.grid.step a ^ 2 := fun i => by ring
  simp only [e1, e2, ← Finset.sum_div, Finset.sum_sub_distrib, Finset.sum_add_distrib]
  rw [sum_mul_roll, sum_mul_roll, neg_neg]
  ring

section
variable {F : Type} [Field F] [LinearOrder F] [IsStrictOrderedRing F] [HasNan F]

/-- **C18** The periodic laplacian is dissipative: `sum(u * L u) = -Σ_a sum(forward_difference(u, a)²) ≤ 0`. -/
theorem C18_laplacian_dissipative (u : GridVariable d F) (hu : u.Periodic) (l : GridArray d F)
    (g : Fin d → GridArray d F) (h1 : laplacian u = .ok l) (h2 : forwardDifferences u = .ok g) :
    inner u.array.toNArr l.toNArr = - ∑ a, inner (g a).toNArr (g a).toNArr ∧
      inner u.array.toNArr l.toNArr ≤ 0 := by
  have key : inner u.array.toNArr l.toNArr = - ∑ a, inner (g a).toNArr (g a).toNArr := by
    rw [laplacian_periodic hu] at h1
    rw [forwardDifferences_periodic hu] at h2
    injection h1 with h1; subst h1
    injection h2 with h2; subst h2
    simp only [inner, Finset.mul_sum]
    rw [Finset.sum_comm, ← Finset.sum_neg_distrib]
    refine Finset.sum_congr rfl fun a _ => ?_
    have e1 : ∀ i, u.array.data i * ((u.array.data (rollIdx u.array.shape a 1 i) +
        u.array.data (rollIdx u.array.shape a (-1) i) - 2 * u.array.data i) / u.array.grid.step a ^ 2) =
        (u.array.data i * u.array.data (rollIdx u.array.shape a 1 i) +
          u.array.data i * u.array.data (rollIdx u.array.shape a (-1) i) -
          2 * (u.array.data i * u.array.data i)) / u.array.grid.step a ^ 2 := fun i => by ring
    have e2 : ∀ i, (u.array.data (rollIdx u.array.shape a 1 i) - u.array.data i) / u.array.grid.step a *
        ((u.array.data (rollIdx u.array.shape a 1 i) - u.array.data i) / u.array.grid.step a) =
        (u.array.data (rollIdx u.array.shape a 1 i) * u.array.data (rollIdx u.array.shape a 1 i) -
          2 * (u.array.data i * u.array.data (rollIdx u.array.shape a 1 i)) +
          u.array.data i * u.array.data i) / u.array.grid.step a ^ 2 := fun i => by ring
    simp only [e1, e2, ← Finset.sum_div, Finset.sum_sub_distrib, Finset.sum_add_distrib, ← Finset.mul_sum]
    rw [sum_roll u.array.shape a 1 (fun i => u.array.data i * u.array.data i),
      sum_mul_roll u.array.shape a (-1), neg_neg]
    simp only [mul_comm (u.array.data (rollIdx u.array.shape a 1 _)) (u.array.data _)]
    ring
  refine ⟨key, ?_⟩
  rw [key, neg_nonpos]
  exact Finset.sum_nonneg fun a _ => Finset.sum_nonneg fun i _ => mul_self_nonneg _

/-- **C18** On a grid of non-degenerate cells, the periodic laplacian vanishes exactly on constants. -/
theorem C18_laplacian_kernel (u : GridVariable d F) (hu : u.Periodic) (l : GridArray d F)
    (h : laplacian u = .ok l) (hstep : ∀ a, u.array.grid.step a ≠ 0) :
    (∀ i, InR l.shape i → l.data i = 0) ↔
      ∃ c, ∀ i, InR u.array.shape i → u.array.data i = c := by
  have hl := h
  rw [laplacian_periodic hu] at h
  injection h with h
  constructor
  · intro h0
    have h2 := forwardDifferences_periodic hu
    obtain ⟨e, -⟩ := C18_laplacian_dissipative u hu l _ hl h2
    have hz : inner u.array.toNArr l.toNArr = 0 := by
      refine Finset.sum_eq_zero fun i hi => ?_
      rw [h0 i (by rw [← h]; exact mem_box.1 hi), mul_zero]
    rw [hz, zero_eq_neg] at e
    have step : ∀ (a : Fin d) (i : Idx d), InR u.array.shape i →
        u.array.data (rollIdx u.array.shape a 1 i) = u.array.data i := by
      intro a i hi
      have ha := (Finset.sum_eq_zero_iff_of_nonneg (fun a _ =>
        Finset.sum_nonneg fun i _ => mul_self_nonneg _)).1 e a (Finset.mem_univ a)
      have hi' := (Finset.sum_eq_zero_iff_of_nonneg (fun i _ => mul_self_nonneg _)).1 ha i (mem_box.2 hi)
      have h3 := mul_self_eq_zero.1 hi'
      rw [div_eq_zero_iff] at h3
      rcases h3 with h3 | h3
      · exact sub_eq_zero.1 h3
      · exact absurd h3 (hstep a)
    -- move coordinates to zero one after another
    have down : ∀ (a : Fin d) (n : ℕ) (i : Idx d), InR u.array.shape i → i a = n →
        u.array.data i = u.array.data (Function.update i a 0) := by
      intro a n
      induction n with
      | zero => intro i _ hn; rw [← Nat.cast_zero, ← hn, Function.update_eq_self]
      | succ n ih =>
        intro i hi hn
        have hb := hi a
        have hi2 : InR u.array.shape (Function.update i a (n : ℤ)) := hi.update a (by omega) (by omega)
        have := step a _ hi2
        have e3 : rollIdx u.array.shape a 1 (Function.update i a (n : ℤ)) = i := by
          unfold rollIdx
          simp only [Function.update_self, Function.update_idem]
          rw [Int.emod_eq_of_lt (by omega) (by omega)]
          have : (n : ℤ) + 1 = i a := by rw [hn]; push_cast; ring
          rw [this, update_get]
        rw [e3] at this
        rw [this, ih _ hi2 (by simp), Function.update_idem]
    have all : ∀ (l : List (Fin d)) (i : Idx d), InR u.array.shape i →
        u.array.data i = u.array.data (l.foldl (fun j a => Function.update j a 0) i) := by
      intro l
      induction l with
      | nil => intro i _; rfl
      | cons a l ih =>
        intro i hi
        have hb := hi a
        rw [List.foldl_cons, ← ih _ (hi.update a le_rfl (by omega))]
        exact down a (i a).toNat i hi (by omega)
    have zero : ∀ (l : List (Fin d)) (i : Idx d) (b : Fin d), (b ∈ l ∨ i b = 0) →
        l.foldl (fun j a => Function.update j a 0) i b = 0 := by
      intro l
      induction l with
      | nil => intro i b hb; simpa using hb
      | cons a l ih =>
        intro i b hb
        rw [List.foldl_cons]
        apply ih
        by_cases e : b = a
        · subst e; right; simp
        · rcases hb with hb | hb
          · left; simpa [e] using hb
          · right; simp [e, hb]
    refine ⟨u.array.data (fun _ => 0), fun i hi => ?_⟩
    rw [all (List.finRange d) i hi]
    congr 1
    funext b
    exact zero _ _ _ (Or.inl (List.mem_finRange b))
  · rintro ⟨c, hc⟩ i hi
    subst h
    dsimp only
    refine Finset.sum_eq_zero fun a _ => ?_
    rw [hc _ (rollIdx_inR hi a 1), hc _ (rollIdx_inR hi a (-1)), hc i hi]
    ring
end

/-! ## C19: vector identities -/

/-- **C19** Forward differences of a periodic variable along two axes commute. -/
theorem C19_forward_differences_commute (u : GridVariable d K) (hu : u.Periodic) (a b : Fin d) :
    ∃ fa fb fab fba, forwardDifference u a = .ok fa ∧ forwardDifference u b = .ok fb ∧
      forwardDifference ⟨fa, u.bc⟩ b = .ok fab ∧ forwardDifference ⟨fb, u.bc⟩ a = .ok fba ∧ fab.Eqv fba := by
  refine ⟨_, _, _, _, forwardDifference_periodic hu a, forwardDifference_periodic hu b,
    forwardDifference_periodic (fwdP_periodic hu a) b, forwardDifference_periodic (fwdP_periodic hu b) a,
    ?_, rfl, rfl, ?_⟩
  · by_cases h : a = b
    · subst h; rfl
    · simp only [Function.update_of_ne h, Function.update_of_ne (Ne.symm h)]
      rw [Function.update_comm h]
  · intro i hi
    simp only [rollIdx_comm _ a b]
    ring

/-- **C19** `curl_2d(forward_difference(u))` succeeds and vanishes for every periodic `u`. -/
theorem C19_curl2d_grad (u : GridVariable 2 K) (hu : u.Periodic) :
    ∃ g r, forwardDifferences u = .ok g ∧ curl2d [⟨g 0, u.bc⟩, ⟨g 1, u.bc⟩] = .ok r ∧
      ∀ i : Idx 2, r.data i = 0 := by
  have ne : (0 : Fin 2) ≠ 1 := by decide
  have hc : curl2d [⟨fwdP u 0, u.bc⟩, ⟨fwdP u 1, u.bc⟩] = .ok ⟨⟨u.array.shape, fun i =>
      (fwdP ⟨fwdP u 1, u.bc⟩ 0).data i - (fwdP ⟨fwdP u 0, u.bc⟩ 1).data i⟩,
      (fwdP ⟨fwdP u 1, u.bc⟩ 0).offset, u.array.grid⟩ := by
    unfold curl2d
    dsimp only
    rw [show consistentGrid [fwdP u 0, fwdP u 1] = .ok u.array.grid from
      uniqueOr_eq_ok.2 ⟨by simp, by simp⟩, Except.bind_ok,
      forwardDifference_periodic (fwdP_periodic hu 1), Except.bind_ok,
      forwardDifference_periodic (fwdP_periodic hu 0), Except.bind_ok, gmap2_eq_ok]
    refine ⟨rfl, ?_, rfl, rfl⟩
    simp only [Function.update_of_ne ne, Function.update_of_ne ne.symm]
    rw [Function.update_comm ne.symm]
  refine ⟨_, _, forwardDifferences_periodic hu, hc, fun i => ?_⟩
  dsimp only
  rw [rollIdx_comm _ 1 0]
  ring

theorem curlComponent_fwd {p q : GridVariable 3 K} (hp : p.Periodic) (hq : q.Periodic) {a b : Fin 3}
    (hg : q.array.grid = p.array.grid)
    (ho : Function.update p.array.offset a (p.array.offset a + 1 / 2) =
      Function.update q.array.offset b (q.array.offset b + 1 / 2)) :
    curlComponent p q a b = .ok ⟨⟨p.array.shape, fun i => (fwdP p a).data i - (fwdP q b).data i⟩,
      Function.update p.array.offset a (p.array.offset a + 1 / 2), p.array.grid⟩ := by
  unfold curlComponent
  have hs : q.array.shape = p.array.shape := by
    funext c; rw [(hp.2 c).1, (hq.2 c).1, hg]
  rw [forwardDifference_periodic hp, Except.bind_ok, forwardDifference_periodic hq, Except.bind_ok,
    gmap2_ok (by exact hs.symm) (by exact ho) (by exact hg.symm)]

/-- **C19** `curl_3d(forward_difference(u))` succeeds and all its components vanish for every periodic `u`. -/
theorem C19_curl3d_grad (u : GridVariable 3 K) (hu : u.Periodic) :
    ∃ g x y z, forwardDifferences u = .ok g ∧
      curl3d [⟨g 0, u.bc⟩, ⟨g 1, u.bc⟩, ⟨g 2, u.bc⟩] = .ok (x, y, z) ∧
      ∀ i : Idx 3, x.data i = 0 ∧ y.data i = 0 ∧ z.data i = 0 := by
  have hoff : ∀ a b : Fin 3, Function.update (fwdP u a).offset b ((fwdP u a).offset b + 1 / 2) =
      Function.update (fwdP u b).offset a ((fwdP u b).offset a + 1 / 2) := by
    intro a b
    by_cases h : a = b
    · subst h; rfl
    · simp only [Function.update_of_ne h, Function.update_of_ne (Ne.symm h)]
      rw [Function.update_comm h]
  have hz : ∀ a b : Fin 3, ∀ i, (fwdP ⟨fwdP u a, u.bc⟩ b).data i - (fwdP ⟨fwdP u b, u.bc⟩ a).data i = 0 := by
    intro a b i
    dsimp only
    rw [rollIdx_comm _ a b]
    ring
  have hc : curl3d [⟨fwdP u 0, u.bc⟩, ⟨fwdP u 1, u.bc⟩, ⟨fwdP u 2, u.bc⟩] = .ok (
      ⟨⟨u.array.shape, fun i => (fwdP ⟨fwdP u 2, u.bc⟩ 1).data i - (fwdP ⟨fwdP u 1, u.bc⟩ 2).data i⟩,
        (fwdP ⟨fwdP u 2, u.bc⟩ 1).offset, u.array.grid⟩,
      ⟨⟨u.array.shape, fun i => (fwdP ⟨fwdP u 0, u.bc⟩ 2).data i - (fwdP ⟨fwdP u 2, u.bc⟩ 0).data i⟩,
        (fwdP ⟨fwdP u 0, u.bc⟩ 2).offset, u.array.grid⟩,
      ⟨⟨u.array.shape, fun i => (fwdP ⟨fwdP u 1, u.bc⟩ 0).data i - (fwdP ⟨fwdP u 0, u.bc⟩ 1).data i⟩,
        (fwdP ⟨fwdP u 1, u.bc⟩ 0).offset, u.array.grid⟩) := by
    unfold curl3d
    dsimp only
    rw [show consistentGrid [fwdP u 0, fwdP u 1, fwdP u 2] = .ok u.array.grid from
      uniqueOr_eq_ok.2 ⟨by simp, by simp⟩, Except.bind_ok,
      curlComponent_fwd (fwdP_periodic hu 2) (fwdP_periodic hu 1) rfl (hoff _ _), Except.bind_ok,
      curlComponent_fwd (fwdP_periodic hu 0) (fwdP_periodic hu 2) rfl (hoff _ _), Except.bind_ok,
      curlComponent_fwd (fwdP_periodic hu 1) (fwdP_periodic hu 0) rfl (hoff _ _), Except.bind_ok,
      Except.pure_eq_ok]
  exact ⟨_, _, _, _, forwardDifferences_periodic hu, hc, fun i => ⟨hz _ _ _, hz _ _ _, hz _ _ _⟩⟩

/-- **C19** The curl of a periodic vector is divergence free in the sense of forward differences:
`Σ_a forward_difference(curl_3d(v)[a], a) = 0` at every cell, all three differences living at one offset. -/
theorem C19_div_curl3d (v0 v1 v2 : GridVariable 3 K) (h0 : v0.Periodic) (h1 : v1.Periodic) (h2 : v2.Periodic)
    (x y z : GridArray 3 K) (h : curl3d [v0, v1, v2] = .ok (x, y, z)) :
    ∃ fx fy fz, forwardDifference ⟨x, v0.bc⟩ 0 = .ok fx ∧ forwardDifference ⟨y, v0.bc⟩ 1 = .ok fy ∧
      forwardDifference ⟨z, v0.bc⟩ 2 = .ok fz ∧ fx.offset = fy.offset ∧ fy.offset = fz.offset ∧
      ∀ i : Idx 3, fx.data i + fy.data i + fz.data i = 0 := by
  unfold curl3d at h
  dsimp only at h
  obtain ⟨g, hg, h⟩ := Except.bind_eq_ok.1 h
  obtain ⟨x', hx, h⟩ := Except.bind_eq_ok.1 h
  obtain ⟨y', hy, h⟩ := Except.bind_eq_ok.1 h
  obtain ⟨z', hz, h⟩ := Except.bind_eq_ok.1 h
  injection h with h
  simp only [Prod.mk.injEq] at h
  obtain ⟨rfl, rfl, rfl⟩ := h
  unfold curlComponent at hx hy hz
  rw [forwardDifference_periodic h2, Except.bind_ok, forwardDifference_periodic h1, Except.bind_ok, gmap2_eq_ok] at hx
  rw [forwardDifference_periodic h0, Except.bind_ok, forwardDifference_periodic h2, Except.bind_ok, gmap2_eq_ok] at hy
  rw [forwardDifference_periodic h1, Except.bind_ok, forwardDifference_periodic h0, Except.bind_ok, gmap2_eq_ok] at hz
  obtain ⟨s1, o1, g1, rfl⟩ := hx
  obtain ⟨s2, o2, g2, rfl⟩ := hy
  obtain ⟨s3, o3, g3, rfl⟩ := hz
  dsimp only at s1 s2 s3 o1 o2 o3 g1 g2 g3
  refine ⟨_, _, _, forwardDifference_periodic (h0.mk' (fun _ => rfl) (by exact s2.symm) (by exact g2.symm)) 0,
    forwardDifference_periodic (h0.mk' (fun _ => rfl) (by exact rfl) (by exact rfl)) 1,
    forwardDifference_periodic (h0.mk' (fun _ => rfl) (by exact s3) (by exact g3)) 2, ?_, ?_, ?_⟩
  · have e := fun a : Fin 3 => congrFun o1 a
    have e' := fun a : Fin 3 => congrFun o2 a
    have e'' := fun a : Fin 3 => congrFun o3 a
    funext a
    have t0 := e 0; have t1 := e 1; have t2 := e 2
    have r0 := e' 0; have r1 := e' 1; have r2 := e' 2
    have q0 := e'' 0; have q1 := e'' 1; have q2 := e'' 2
    simp at t0 t1 t2 r0 r1 r2 q0 q1 q2
    fin_cases a <;> simp <;> linarith
  · have e := fun a : Fin 3 => congrFun o1 a
    have e' := fun a : Fin 3 => congrFun o2 a
    have e'' := fun a : Fin 3 => congrFun o3 a
    funext a
    have t0 := e 0; have t1 := e 1; have t2 := e 2
    have r0 := e' 0; have r1 := e' 1; have r2 := e' 2
    have q0 := e'' 0; have q1 := e'' 1; have q2 := e'' 2
    simp at t0 t1 t2 r0 r1 r2 q0 q1 q2
    fin_cases a <;> simp <;> linarith
  · intro i
    have hs1 : v1.array.shape = v0.array.shape := s3
    have hs2 : v2.array.shape = v0.array.shape := s2.symm
    have hg1 : v1.array.grid = v0.array.grid := g3
    have hg2 : v2.array.grid = v0.array.grid := g2.symm
    simp only [hs1, hs2, hg1, hg2]
    rw [rollIdx_comm _ 1 0, rollIdx_comm _ 2 0, rollIdx_comm _ 2 1]
    ring

/-- **C19** (what the user must not do) `divergence(curl_3d(v))` never succeeds: the backward differences of the curl
components live at different offsets, so the sum is rejected. -/
theorem C19_divergence_of_curl3d_rejected (v0 v1 v2 : GridVariable 3 K) (h0 : v0.Periodic) (h1 : v1.Periodic)
    (h2 : v2.Periodic) (x y z : GridArray 3 K) (h : curl3d [v0, v1, v2] = .ok (x, y, z)) (r : GridArray 3 K) :
    divergence [⟨x, v0.bc⟩, ⟨y, v0.bc⟩, ⟨z, v0.bc⟩] ≠ .ok r := by
  unfold curl3d at h
  dsimp only at h
  obtain ⟨g, hg, h⟩ := Except.bind_eq_ok.1 h
  obtain ⟨x', hx, h⟩ := Except.bind_eq_ok.1 h
  obtain ⟨y', hy, h⟩ := Except.bind_eq_ok.1 h
  obtain ⟨z', hz, h⟩ := Except.bind_eq_ok.1 h
  injection h with h
  simp only [Prod.mk.injEq] at h
  obtain ⟨rfl, rfl, rfl⟩ := h
  unfold curlComponent at hx hy hz
  rw [forwardDifference_periodic h2, Except.bind_ok, forwardDifference_periodic h1, Except.bind_ok, gmap2_eq_ok] at hx
  rw [forwardDifference_periodic h0, Except.bind_ok, forwardDifference_periodic h2, Except.bind_ok, gmap2_eq_ok] at hy
  rw [forwardDifference_periodic h1, Except.bind_ok, forwardDifference_periodic h0, Except.bind_ok, gmap2_eq_ok] at hz
  obtain ⟨s1, o1, g1, rfl⟩ := hx
  obtain ⟨s2, o2, g2, rfl⟩ := hy
  obtain ⟨s3, o3, g3, rfl⟩ := hz
  dsimp only at s1 s2 s3 o1 o2 o3 g1 g2 g3
  intro hd
  let w : Fin 3 → GridVariable 3 K := ![
    ⟨⟨⟨v2.array.shape, fun i => (fwdP v2 1).data i - (fwdP v1 2).data i⟩, (fwdP v2 1).offset, v2.array.grid⟩, v0.bc⟩,
    ⟨⟨⟨v0.array.shape, fun i => (fwdP v0 2).data i - (fwdP v2 0).data i⟩, (fwdP v0 2).offset, v0.array.grid⟩, v0.bc⟩,
    ⟨⟨⟨v1.array.shape, fun i => (fwdP v1 0).data i - (fwdP v0 1).data i⟩, (fwdP v1 0).offset, v1.array.grid⟩, v0.bc⟩]
  have hw : ∀ a, (w a).Periodic := by
    intro a
    fin_cases a
    · exact h0.mk' (fun _ => rfl) (by exact s2.symm) (by exact g2.symm)
    · exact h0.mk' (fun _ => rfl) (by exact rfl) (by exact rfl)
    · exact h0.mk' (fun _ => rfl) (by exact s3) (by exact g3)
  obtain ⟨-, hr, -⟩ := (divergence_periodic (v := w) hw).1 hd
  have a0 := congrFun (hr 0).2.1 0
  have a1 := congrFun (hr 1).2.1 0
  have q0 := congrFun o1 0
  have q1 := congrFun o2 0
  simp [w] at a0 a1 q0 q1
  linarith

/-! ## C20: linearity and exactness -/

/-- **C20** The difference operators are linear: on periodic variables with one grid, offset and boundary condition,
applying them to `α u + β w` gives `α D u + β D w`. -/
theorem C20_linear (u w c : GridVariable d K) (hu : u.Periodic) (hw : w.Periodic)
    (hg : w.array.grid = u.array.grid)
    (α β : K) (hc : c.bc = u.bc) (hcg : c.array.grid = u.array.grid) (hcs : c.array.shape = u.array.shape)
    (hcd : ∀ i, InR u.array.shape i → c.array.data i = α * u.array.data i + β * w.array.data i) (ax : Fin d) :
    (∀ du dw dc, forwardDifference u ax = .ok du → forwardDifference w ax = .ok dw →
      forwardDifference c ax = .ok dc → ∀ i, InR dc.shape i → dc.data i = α * du.data i + β * dw.data i) ∧
    (∀ du dw dc, backwardDifference u ax = .ok du → backwardDifference w ax = .ok dw →
      backwardDifference c ax = .ok dc → ∀ i, InR dc.shape i → dc.data i = α * du.data i + β * dw.data i) ∧
    (∀ du dw dc, centralDifference u ax = .ok du → centralDifference w ax = .ok dw →
      centralDifference c ax = .ok dc → ∀ i, InR dc.shape i → dc.data i = α * du.data i + β * dw.data i) ∧
    (∀ du dw dc, laplacian u = .ok du → laplacian w = .ok dw →
      laplacian c = .ok dc → ∀ i, InR dc.shape i → dc.data i = α * du.data i + β * dw.data i) := by
  have hcp : c.Periodic := hu.mk' (fun a => by rw [hc]) hcs hcg
  have hs : w.array.shape = u.array.shape := by
    funext a; rw [(hu.2 a).1, (hw.2 a).1, hg]
  refine ⟨?_, ?_, ?_, ?_⟩
  · intro du dw dc h1 h2 h3 i hi
    rw [forwardDifference_periodic hu] at h1
    rw [forwardDifference_periodic hw] at h2
    rw [forwardDifference_periodic hcp] at h3
    injection h1 with h1; injection h2 with h2; injection h3 with h3
    subst h1 h2 h3
    dsimp only at hi ⊢
    rw [hcs] at hi ⊢
    rw [hs, hg, hcg, hcd _ hi, hcd _ (rollIdx_inR hi _ _)]
    ring
  · intro du dw dc h1 h2 h3 i hi
    rw [backwardDifference_periodic hu] at h1
    rw [backwardDifference_periodic hw] at h2
    rw [backwardDifference_periodic hcp] at h3
    injection h1 with h1; injection h2 with h2; injection h3 with h3
    subst h1 h2 h3
    dsimp only at hi ⊢
    rw [hcs] at hi ⊢
    rw [hs, hg, hcg, hcd _ hi, hcd _ (rollIdx_inR hi _ _)]
    ring
  · intro du dw dc h1 h2 h3 i hi
    rw [centralDifference_periodic hu] at h1
    rw [centralDifference_periodic hw] at h2
    rw [centralDifference_periodic hcp] at h3
    injection h1 with h1; injection h2 with h2; injection h3 with h3
    subst h1 h2 h3
    dsimp only at hi ⊢
    rw [hcs] at hi ⊢
    rw [hs, hg, hcg, hcd _ (rollIdx_inR hi _ _), hcd _ (rollIdx_inR hi _ _)]
    ring
  · intro du dw dc h1 h2 h3 i hi
    rw [laplacian_periodic hu] at h1
    rw [laplacian_periodic hw] at h2
    rw [laplacian_periodic hcp] at h3
    injection h1 with h1; injection h2 with h2; injection h3 with h3
    subst h1 h2 h3
    dsimp only at hi ⊢
    rw [hcs] at hi ⊢
    rw [hs, hg, hcg, Finset.mul_sum, Finset.mul_sum, ← Finset.sum_add_distrib]
    refine Finset.sum_congr rfl fun a _ => ?_
    rw [hcd _ hi, hcd _ (rollIdx_inR hi _ _), hcd _ (rollIdx_inR hi _ _)]
    ring

/-- The physical coordinate along axis `a` of cell `i` of an array with the given offset. -/
def coord (u : GridArray d K) (a : Fin d) (i : Idx d) : K :=
  (u.grid.domain a).1 + ((i a : K) + (u.offset a : K)) * u.grid.step a

/-- **C20** Exactness.  For data sampled from the quadratic `Σ_a (α_a x_a² + β_a x_a) + γ`, at every cell whose stencil
does not cross the periodic seam, the laplacian is `Σ_a 2 α_a`, the central difference is the derivative at the cell,
and the forward (backward) difference is the derivative half a cell above (below), in particular the slope `β_a` for
affine data. -/
theorem C20_exact (u : GridVariable d K) (hu : u.Periodic) (hstep : ∀ a, u.array.grid.step a ≠ 0)
    (h2 : (2 : K) ≠ 0) (α β : Fin d → K) (γ : K)
    (hdata : ∀ i, InR u.array.shape i → u.array.data i =
      (∑ a, (α a * coord u.array a i ^ 2 + β a * coord u.array a i)) + γ)
    (i : Idx d) (hi : InR u.array.shape i) (ax : Fin d) :
    (∀ r, forwardDifference u ax = .ok r → i ax + 1 < u.array.shape ax →
      r.data i = 2 * α ax * (coord u.array ax i + u.array.grid.step ax / 2) + β ax) ∧
    (∀ r, backwardDifference u ax = .ok r → 0 < i ax →
      r.data i = 2 * α ax * (coord u.array ax i - u.array.grid.step ax / 2) + β ax) ∧
    (∀ r, centralDifference u ax = .ok r → 0 < i ax → i ax + 1 < u.array.shape ax →
      r.data i = 2 * α ax * coord u.array ax i + β ax) ∧
    (∀ r, laplacian u = .ok r → (∀ a, 0 < i a ∧ i a + 1 < u.array.shape a) →
      r.data i = ∑ a, 2 * α a) := by
  set f : Fin d → Idx d → K := fun a j => α a * coord u.array a j ^ 2 + β a * coord u.array a j with hf
  have hroll : ∀ (a : Fin d) (k : ℤ), 0 ≤ i a + k → i a + k < u.array.shape a →
      rollIdx u.array.shape a k i = Function.update i a (i a + k) := by
    intro a k h h'
    unfold rollIdx; rw [Int.emod_eq_of_lt h h']
  have hval : ∀ (a : Fin d) (k : ℤ), 0 ≤ i a + k → i a + k < u.array.shape a →
      u.array.data (rollIdx u.array.shape a k i) - u.array.data i =
        α a * ((coord u.array a i + k * u.array.grid.step a) ^ 2 - coord u.array a i ^ 2) +
          β a * (k * u.array.grid.step a) := by
    intro a k h h'
    rw [hdata _ (rollIdx_inR hi _ _), hdata _ hi, hroll a k h h']
    rw [add_sub_add_right_eq_sub, ← Finset.sum_sub_distrib]
    rw [Finset.sum_eq_single a]
    · simp only [coord, Function.update_self]
      push_cast; ring
    · intro b _ hb
      simp only [coord, Function.update_of_ne hb]; ring
    · intro h; exact absurd (Finset.mem_univ a) h
  refine ⟨?_, ?_, ?_, ?_⟩
  · intro r h h'
    rw [forwardDifference_periodic hu] at h
    injection h with h; subst h
    have := hi ax
    dsimp only
    rw [hval ax 1 (by omega) (by omega)]
    have := hstep ax
    field_simp
    push_cast; ring
  · intro r h h'
    rw [backwardDifference_periodic hu] at h
    injection h with h; subst h
    have := hi ax
    dsimp only
    rw [← neg_sub, hval ax (-1) (by omega) (by omega)]
    have := hstep ax
    field_simp
    push_cast; ring
  · intro r h h' h''
    rw [centralDifference_periodic hu] at h
    injection h with h; subst h
    have := hi ax
    dsimp only
    rw [← sub_sub_sub_cancel_right _ _ (u.array.data i), hval ax (-1) (by omega) (by omega),
      hval ax 1 (by omega) (by omega)]
    have := hstep ax
    field_simp
    push_cast; ring
  · intro r h h'
    rw [laplacian_periodic hu] at h
    injection h with h; subst h
    dsimp only
    refine Finset.sum_congr rfl fun a _ => ?_
    have := hi a
    have := h' a
    rw [show u.array.data (rollIdx u.array.shape a 1 i) + u.array.data (rollIdx u.array.shape a (-1) i) -
        2 * u.array.data i = (u.array.data (rollIdx u.array.shape a 1 i) - u.array.data i) +
          (u.array.data (rollIdx u.array.shape a (-1) i) - u.array.data i) by ring,
      hval a (-1) (by omega) (by omega), hval a 1 (by omega) (by omega)]
    have := hstep a
    field_simp
    push_cast; ring

/-! ## C21: summation by parts -/

/-- **C21** Summation by parts: `sum(u * forward_difference(v)) = -sum(backward_difference(u) * v)`, and
`sum(u * central_difference(v)) = -sum(central_difference(u) * v)`. -/
theorem C21_summation_by_parts (u v : GridVariable d K) (hu : u.Periodic) (hv : v.Periodic)
    (hg : u.array.grid = v.array.grid) (ax : Fin d) :
    (∀ fv bu, forwardDifference v ax = .ok fv → backwardDifference u ax = .ok bu →
      inner u.array.toNArr fv.toNArr = - inner bu.toNArr v.array.toNArr) ∧
    (∀ cv cu, centralDifference v ax = .ok cv → centralDifference u ax = .ok cu →
      inner u.array.toNArr cv.toNArr = - inner cu.toNArr v.array.toNArr) := by
  have hs : v.array.shape = u.array.shape := by
    funext a; rw [(hu.2 a).1, (hv.2 a).1, hg]
  refine ⟨fun fv bu h1 h2 => ?_, fun fv bu h1 h2 => ?_⟩
  · rw [forwardDifference_periodic hv] at h1
    rw [backwardDifference_periodic hu] at h2
    injection h1 with h1; subst h1
    injection h2 with h2; subst h2
    simp only [inner, hs, hg, ← mul_div_assoc, div_mul_eq_mul_div, ← Finset.sum_div, mul_sub, sub_mul,
      Finset.sum_sub_distrib]
    rw [sum_mul_roll]; ring
  · rw [centralDifference_periodic hv] at h1
    rw [centralDifference_periodic hu] at h2
    injection h1 with h1; subst h1
    injection h2 with h2; subst h2
    simp only [inner, hs, hg, ← mul_div_assoc, div_mul_eq_mul_div, ← Finset.sum_div, mul_sub, sub_mul,
      Finset.sum_sub_distrib]
    rw [sum_mul_roll, sum_mul_roll, neg_neg]; ring

/-- **C21** The divergence is minus the adjoint of the gradient:
`sum(q * divergence(v)) = -Σ_a sum(forward_difference(q, a) * v[a])`. -/
theorem C21_divergence_adjoint (q : GridVariable d K) (v : Fin d → GridVariable d K) (hq : q.Periodic)
    (hv : ∀ a, (v a).Periodic) (hg : ∀ a, (v a).array.grid = q.array.grid)
    (g : Fin d → GridArray d K) (r : GridArray d K)
    (h1 : forwardDifferences q = .ok g) (h2 : divergence (List.ofFn v) = .ok r) :
    inner q.array.toNArr r.toNArr = - ∑ a, inner (g a).toNArr (v a).array.toNArr := by
  obtain ⟨-, -, hr⟩ := (divergence_periodic hv).1 h2
  have hs : ∀ a, (v a).array.shape = q.array.shape := by
    intro a; funext b; rw [(hq.2 b).1, ((hv a).2 b).1, hg]
  rw [forwardDifferences_periodic hq] at h1
  injection h1 with h1; subst h1
  simp only [inner, hr, Finset.mul_sum]
  rw [Finset.sum_comm, ← Finset.sum_neg_distrib]
  refine Finset.sum_congr rfl fun a _ => ?_
  simp only [hs, hg, ← mul_div_assoc, div_mul_eq_mul_div, ← Finset.sum_div, mul_sub, sub_mul,
      Finset.sum_sub_distrib]
  rw [sum_mul_roll, neg_neg]
  ring

/-! ## The hypotheses are met by concrete, non-constant data -/

namespace Fixtures
theorem pu34_periodic : pu34.Periodic :=
  ⟨fun _ => rfl, fun a => by fin_cases a <;> simp [pu34, u34, g34]⟩
theorem pv34_periodic (a : Fin 2) : (pv34 a).Periodic :=
  ⟨fun _ => rfl, fun b => by fin_cases b <;> simp [pv34, g34]⟩
theorem pv3_periodic (a : Fin 3) : (pv3 a).Periodic :=
  ⟨fun _ => rfl, fun b => ⟨rfl, by simp [pv3]⟩⟩
theorem pq4_periodic : pq4.Periodic := ⟨fun _ => rfl, fun b => ⟨rfl, by simp [pq4, g4]⟩⟩

-- C05: a Dirichlet face variable also meets the hypotheses (C08 shows such shifts succeed)
example : 0 < uFace.grid.shape 0 ∧ uFace.offset 0 ≤ uFace.grid.shape 0 := by norm_num [uFace, g4]
-- C17, C21: the divergence of `pv34` succeeds
example : ∃ r, divergence (List.ofFn pv34) = .ok r :=
  (C17_divergence_succeeds_iff (by norm_num) pv34 pv34_periodic).2 ⟨g34, fun _ => 1 / 2, fun a => ⟨rfl, fun b => by
    by_cases h : b = a
    · subst h; simp [pv34]; norm_num
    · simp [pv34, h]⟩⟩
-- C18: non-degenerate cells, and a laplacian that does not vanish
example : (∀ a, pu34.array.grid.step a ≠ 0) ∧ ∃ l, laplacian pu34 = .ok l ∧ l.data ![0, 0] = 117 := by
  refine ⟨fun a => by fin_cases a <;> norm_num [pu34, u34, g34, Grid.step], _, laplacian_periodic pu34_periodic, ?_⟩
  dsimp only
  rw [Fin.sum_univ_two]
  norm_num [pu34, u34, g34, Grid.step, rollIdx, Function.update]
-- C19: the three-dimensional curl succeeds on face data
example : ∃ x y z, curl3d [pv3 0, pv3 1, pv3 2] = .ok (x, y, z) := by
  have h := fun a b : Fin 3 => fun ho => curlComponent_fwd (pv3_periodic a) (pv3_periodic b) (a := b) (b := a) rfl ho
  have ho : ∀ a b : Fin 3, Function.update (pv3 a).array.offset b ((pv3 a).array.offset b + 1 / 2) =
      Function.update (pv3 b).array.offset a ((pv3 b).array.offset a + 1 / 2) := by
    intro a b; funext c
    simp only [pv3, Function.update_apply]
    by_cases h1 : c = a <;> by_cases h2 : c = b <;> by_cases h3 : a = b <;> simp_all <;> norm_num
  obtain ⟨x, hx⟩ : ∃ x, curlComponent (pv3 2) (pv3 1) 1 2 = .ok x := ⟨_, h 2 1 (ho _ _)⟩
  obtain ⟨y, hy⟩ : ∃ x, curlComponent (pv3 0) (pv3 2) 2 0 = .ok x := ⟨_, h 0 2 (ho _ _)⟩
  obtain ⟨z, hz⟩ : ∃ x, curlComponent (pv3 1) (pv3 0) 0 1 = .ok x := ⟨_, h 1 0 (ho _ _)⟩
  refine ⟨x, y, z, ?_⟩
  unfold curl3d
  dsimp only
  rw [show consistentGrid [(pv3 0).array, (pv3 1).array, (pv3 2).array] = .ok (pv3 0).array.grid from
    uniqueOr_eq_ok.2 ⟨by simp, by simp [pv3]⟩, Except.bind_ok, hx, Except.bind_ok, hy,
    Except.bind_ok, hz, Except.bind_ok, Except.pure_eq_ok]
-- C20: quadratic data, non-degenerate step
example : (∀ a, pq4.array.grid.step a ≠ 0) ∧ ∀ i, InR pq4.array.shape i → pq4.array.data i =
    (∑ a, ((fun _ => 3 : Fin 1 → ℚ) a * coord pq4.array a i ^ 2 + (fun _ => 2 : Fin 1 → ℚ) a * coord pq4.array a i)) + 1 := by
  refine ⟨fun a => by norm_num [pq4, g4, Grid.step], fun i _ => ?_⟩
  simp only [Fin.sum_univ_one, pq4, g4, coord, Grid.step]
  norm_num
end Fixtures

end JaxCfd
