import Verif.Lemmas.Interp1d
import Verif.Props.Fixtures

/-! # C43: one-dimensional interpolation -/

namespace JaxCfd
variable {K : Type} [Field K] [LinearOrder K] [IsStrictOrderedRing K] [HasNan K]
set_option linter.unusedSectionVars false

/-- Specification: the value at `v` of the straight line through `(x₀, y₀)` and `(x₁, y₁)`. -/
def lineAt (x₀ y₀ x₁ y₁ v : K) : K := y₀ + (y₁ - y₀) * ((v - x₀) / (x₁ - x₀))

/-- Specification: what is returned outside of the data range, given the value at the nearest node and the value of the line
through the two nearest nodes. -/
def outsideValue (fill : Fill K) (nearest line : K) : K :=
  match fill with
  | .str s => if s = "extrapolate" then line else nearest
  | .scalar c => c
  | .array => nearest

/-- The entry of the result `z` of `interp1d` for the entry `j` of `x_new`, as a function of the data line `(p, ·, q)` of `y`. -/
structure Interpolates (node : ℕ → K) (n : ℕ) (fill : Fill K) (line : ℕ → K) (v out : K) : Prop where
  /-- between two neighbouring nodes: the chord -/
  inside : ∀ i k, i < n → k < n → node i < node k → (∀ l, l < n → node l ≤ node i ∨ node k ≤ node l) → node i ≤ v → v ≤ node k →
    out = lineAt (node i) (line i) (node k) (line k) v
  /-- below all nodes; `i` and `k` are the lowest two -/
  below : ∀ i k, i < n → k < n → node i < node k → (∀ l, l < n → l = i ∨ node k ≤ node l) → v < node i →
    out = outsideValue fill (line i) (lineAt (node i) (line i) (node k) (line k) v)
  /-- above all nodes; `k` and `i` are the highest two -/
  above : ∀ i k, i < n → k < n → node i < node k → (∀ l, l < n → l = k ∨ node l ≤ node i) → node k < v →
    out = outsideValue fill (line k) (lineAt (node i) (line i) (node k) (line k) v)

/-- The specification value in terms of the parsed mode. -/
def FillMode.outside (mode : FillMode K) (a b : K) : K :=
  match mode with
  | .extrapolate => b
  | .constant => a
  | .scalar c => c

theorem parse_outside {fill : Fill K} {mode : FillMode K} (h : fill.parse = .ok mode) (a b : K) :
    outsideValue fill a b = mode.outside a b := by
  cases fill with
  | str s =>
    simp only [Fill.parse] at h
    split_ifs at h with h1 h2
    · cases h; simp [outsideValue, FillMode.outside, h1]
    · cases h; simp [outsideValue, FillMode.outside, h1]
  | scalar c => cases h; rfl
  | array => cases h

theorem interpolates_core {x : List K} (hn : 2 ≤ x.length) (hx : x.Pairwise (· < ·)) {fill : Fill K} {mode : FillMode K}
    (hf : fill.parse = .ok mode) (line : ℕ → K) (v : K) :
    Interpolates (fun k => x.getD k 0) x.length fill line v (interpVal x mode v line) := by
  have hle : x.Pairwise (· ≤ ·) := hx.imp le_of_lt
  have hlt : ∀ i j, i < j → j < x.length → x.getD i 0 < x.getD j 0 := by
    intro i j hij hj
    rw [List.getD_eq_getElem _ _ (by omega), List.getD_eq_getElem _ _ hj]
    exact List.pairwise_iff_getElem.1 hx i j (by omega) hj hij
  have hinj : ∀ i j, i < x.length → j < x.length → x.getD i 0 < x.getD j 0 → i < j := by
    intro i j hi hj h
    by_contra hc
    exact absurd (sorted_get_le hle (i := j) (j := i) (by omega) hi) (not_le.2 h)
  have hsucc : ∀ i k, i < x.length → k < x.length → x.getD i 0 < x.getD k 0 →
      (i + 1 < k → ¬ (x.getD (i + 1) 0 ≤ x.getD i 0 ∨ x.getD k 0 ≤ x.getD (i + 1) 0)) := by
    intro i k hi hk h h1 h2
    rcases h2 with h2 | h2
    · exact absurd (hlt i (i + 1) (by omega) (by omega)) (not_lt.2 h2)
    · exact absurd (hlt (i + 1) k h1 hk) (not_lt.2 h2)
  refine ⟨?_, ?_, ?_⟩
  · intro i k hi hk hik hall h1 h2
    beta_reduce at hik hall h1 h2 ⊢
    have hlt' := hinj i k hi hk hik
    have hk1 : k = i + 1 := by
      by_contra hc
      exact hsucc i k hi hk hik (by omega) (hall (i + 1) (by omega))
    subst hk1
    unfold lineAt
    rcases h2.lt_or_eq with h2 | h2
    · rw [interpVal_mid hle mode v line i hk h1 h2]; ring
    · have hne : x.getD (i + 1) 0 - x.getD i 0 ≠ 0 := (sub_pos.2 hik).ne'
      have er : line i + (line (i + 1) - line i) * ((v - x.getD i 0) / (x.getD (i + 1) 0 - x.getD i 0)) = line (i + 1) := by
        rw [h2, div_self hne]; ring
      rw [er]
      by_cases hlast : i + 2 < x.length
      · rw [interpVal_mid hle mode v line (i + 1) hlast h2.ge (by rw [h2]; exact hlt _ _ (by omega) hlast), h2]; ring
      · have hm : x.length = i + 2 := by omega
        rw [interpVal_top hle mode v line i hm h2.ge hik]
        cases mode with
        | extrapolate =>
          dsimp only
          rw [h2, mul_div_cancel₀ _ hne]; ring
        | constant => rfl
        | scalar c => simp [h2]
  · intro i k hi hk hik hall h1
    beta_reduce at hik hall h1 ⊢
    have hlt' := hinj i k hi hk hik
    have hi0 : i = 0 := by
      by_contra hc
      rcases hall 0 (by omega) with h | h
      · omega
      · have := hlt 0 k (by omega) hk
        exact absurd this (not_lt.2 h)
    subst hi0
    have hk1 : k = 1 := by
      by_contra hc
      rcases hall 1 (by omega) with h | h
      · omega
      · exact absurd (hlt 1 k (by omega) hk) (not_lt.2 h)
    subst hk1
    rw [interpVal_bot hle mode v line hn h1 hik, parse_outside hf]
    cases mode with
    | extrapolate => simp only [FillMode.outside, lineAt]; ring
    | constant => rfl
    | scalar c => rfl
  · intro i k hi hk hik hall h1
    beta_reduce at hik hall h1 ⊢
    have hlt' := hinj i k hi hk hik
    have hkl : k = x.length - 1 := by
      by_contra hc
      rcases hall (x.length - 1) (by omega) with h | h
      · omega
      · exact absurd (hlt i (x.length - 1) (by omega) (by omega)) (not_lt.2 h)
    have hil : i + 1 = k := by
      by_contra hc
      rcases hall (i + 1) (by omega) with h | h
      · omega
      · exact absurd (hlt i (i + 1) (by omega) (by omega)) (not_lt.2 h)
    subst hil
    rw [interpVal_top hle mode v line i (by omega) h1.le hik, parse_outside hf]
    cases mode with
    | extrapolate => simp only [FillMode.outside, lineAt]; ring
    | constant => rfl
    | scalar c =>
      simp only [FillMode.outside]
      exact if_neg h1.ne'

/-- **C43** Everything the returned function computes, for strictly increasing nodes: the shape of `x_new` replaces the
interpolated axis, between neighbouring nodes the value lies on the chord, and outside of the range it is given by `fill_value`. -/
theorem C43_sorted (x : List K) (y : LArr K) (axis : ℤ) (fill : Fill K) (f : LArr K → Except Err (LArr K))
    (hf : interp1d x y axis fill true = .ok f) (hx : x.Pairwise (· < ·)) (xnew : LArr K) :
    ∃ (ax : Fin y.shape.length) (z : LArr K), normalizeAxis axis y.shape.length = .ok ax ∧ f xnew = .ok z ∧
      z.shape = y.shape.take ax ++ xnew.shape ++ y.shape.drop (ax + 1) ∧
      ∀ p j q : List ℤ, LInR (y.shape.take ax) p → LInR xnew.shape j → LInR (y.shape.drop (ax + 1)) q →
        Interpolates (fun k => x.getD k 0) x.length fill (fun k => y.data (p ++ [(k : ℤ)] ++ q)) (xnew.data j) (z.data (p ++ j ++ q)) := by
  unfold interp1d at hf
  cases hm : fill.parse with
  | error e => rw [hm] at hf; cases hf
  | ok mode =>
    rw [hm] at hf
    simp only [Except.bind_ok, if_true] at hf
    by_cases hn : x.length < 2
    · rw [if_pos hn] at hf; cases hf
    rw [if_neg hn] at hf
    cases hax : normalizeAxis axis y.shape.length with
    | error e => rw [hax] at hf; dsimp only at hf; split_ifs at hf
    | ok ax =>
      rw [hax] at hf
      dsimp only at hf
      split_ifs at hf with hs
      injection hf with hf
      subst hf
      obtain ⟨z, hz, hsh, hd⟩ := interpFunc_ok x y ax ax.2 mode xnew
      refine ⟨ax, z, rfl, hz, hsh, ?_⟩
      intro p j q hp hj hq
      rw [hd p j q hp hj hq]
      exact interpolates_core (by omega) hx hm _ _

theorem argsort_perm (x : List K) : (argsort x).Perm (List.range x.length) := List.mergeSort_perm _ _

theorem argsort_sorted (x : List K) : ((argsort x).map fun i => x.getD i 0).Pairwise (· ≤ ·) := by
  rw [List.pairwise_map]
  have := List.pairwise_mergeSort (le := fun i j => decide (x.getD i 0 ≤ x.getD j 0))
    (fun a b c h1 h2 => by simp only [decide_eq_true_eq] at *; exact h1.trans h2)
    (fun a b => by simp only [Bool.or_eq_true, decide_eq_true_eq]; exact le_total _ _) (List.range x.length)
  exact this.imp (fun h => by simpa using h)

/-- **C43** With `assume_sorted=False` and distinct nodes in any order the same is true: neighbouring means neighbouring in value. -/
theorem C43_unsorted (x : List K) (y : LArr K) (axis : ℤ) (fill : Fill K) (f : LArr K → Except Err (LArr K))
    (hf : interp1d x y axis fill false = .ok f) (hx : x.Nodup) (ax : Fin y.shape.length)
    (hax : normalizeAxis axis y.shape.length = .ok ax) (hsize : y.shape.getD ax 0 = x.length) (xnew : LArr K) :
    ∃ z : LArr K, f xnew = .ok z ∧ z.shape = y.shape.take ax ++ xnew.shape ++ y.shape.drop (ax + 1) ∧
      ∀ p j q : List ℤ, LInR (y.shape.take ax) p → LInR xnew.shape j → LInR (y.shape.drop (ax + 1)) q →
        Interpolates (fun k => x.getD k 0) x.length fill (fun k => y.data (p ++ [(k : ℤ)] ++ q)) (xnew.data j) (z.data (p ++ j ++ q)) := by
  unfold interp1d at hf
  cases hm : fill.parse with
  | error e => rw [hm] at hf; cases hf
  | ok mode =>
    rw [hm] at hf
    simp only [Except.bind_ok, Bool.false_eq_true, if_false] at hf
    by_cases hn : x.length < 2
    · rw [if_pos hn] at hf; cases hf
    rw [if_neg hn, hax] at hf
    dsimp only at hf
    split_ifs at hf with hs
    injection hf with hf
    subst hf
    have hperm := argsort_perm x
    have hlen : (argsort x).length = x.length := by rw [hperm.length_eq]; simp
    have hmem : ∀ i, i ∈ argsort x ↔ i < x.length := by intro i; rw [hperm.mem_iff]; simp
    have hnd : (argsort x).Nodup := hperm.nodup_iff.2 List.nodup_range
    have hget : ∀ k, k < x.length → (argsort x).getD k 0 < x.length := by
      intro k hk
      rw [List.getD_eq_getElem _ _ (by omega)]
      exact (hmem _).1 (List.getElem_mem _)
    have hpos : ∀ i, i < x.length → ∃ k, k < x.length ∧ (argsort x).getD k 0 = i := by
      intro i hi
      obtain ⟨k, hk, e⟩ := List.getElem_of_mem ((hmem i).2 hi)
      exact ⟨k, by omega, by rw [List.getD_eq_getElem _ _ hk, e]⟩
    have hxinj : ∀ i j, i < x.length → j < x.length → x.getD i 0 = x.getD j 0 → i = j := by
      intro i j hi hj h
      rw [List.getD_eq_getElem _ _ hi, List.getD_eq_getElem _ _ hj] at h
      exact (List.Nodup.getElem_inj_iff hx).1 h
    set x' := (argsort x).map fun i => x.getD i 0 with hx'
    have hxl : x'.length = x.length := by rw [hx', List.length_map, hlen]
    have hxg : ∀ k, k < x.length → x'.getD k 0 = x.getD ((argsort x).getD k 0) 0 := by
      intro k hk
      rw [List.getD_eq_getElem _ _ (by omega), List.getD_eq_getElem (argsort x) _ (by omega)]
      simp only [hx', List.getElem_map]
    have hstrict : x'.Pairwise (· < ·) := by
      rw [List.pairwise_iff_getElem]
      intro i j hi hj hij
      have h1 := List.pairwise_iff_getElem.1 (argsort_sorted x) i j hi hj hij
      refine lt_of_le_of_ne h1 ?_
      intro he
      rw [← List.getD_eq_getElem x' 0 hi, ← List.getD_eq_getElem x' 0 hj, hxg i (by omega), hxg j (by omega)] at he
      have := hxinj _ _ (hget i (by omega)) (hget j (by omega)) he
      rw [List.getD_eq_getElem _ _ (by omega), List.getD_eq_getElem _ _ (by omega)] at this
      have := (List.Nodup.getElem_inj_iff hnd).1 this
      omega
    have hys : (takeAxis y (argsort x) ax).shape = y.shape := by
      show y.shape.set ax _ = y.shape
      rw [hlen, ← hsize, List.getD_eq_getElem _ _ ax.2, List.set_getElem_self]
    obtain ⟨z, hz, hsh, hd⟩ := interpFunc_ok x' (takeAxis y (argsort x) ax) ax (by rw [hys]; exact ax.2) mode xnew
    rw [hys] at hsh hd
    refine ⟨z, hz, hsh, ?_⟩
    intro p j q hp hj hq
    have hpl : p.length = (ax : ℕ) := by rw [hp.length, List.length_take]; omega
    have core := interpolates_core (by omega) hstrict hm
      (fun k => (takeAxis y (argsort x) ax).data (p ++ [(k : ℤ)] ++ q)) (xnew.data j)
    have hline : ∀ k, k < x.length → (takeAxis y (argsort x) ax).data (p ++ [(k : ℤ)] ++ q) =
        y.data (p ++ [(((argsort x).getD k 0 : ℕ) : ℤ)] ++ q) := by
      intro k hk
      have g : (p ++ [(k : ℤ)] ++ q).getD ax 0 = k := by
        rw [List.append_assoc, List.getD_append_right _ _ _ _ (by omega), hpl]
        simp
      unfold takeAxis
      dsimp only
      rw [g, Int.toNat_natCast, hsize, if_pos (hget k hk)]
      congr 1
      rw [List.append_assoc, List.set_append_right _ _ (by omega), hpl]
      simp
    rw [hd p j q hp hj hq]
    refine ⟨?_, ?_, ?_⟩
    · intro i k hi hk hik hall h1 h2
      obtain ⟨a, ha, rfl⟩ := hpos i hi
      obtain ⟨b, hb, rfl⟩ := hpos k hk
      rw [← hxg a ha, ← hxg b hb] at hik
      rw [← hxg a ha] at h1
      rw [← hxg b hb] at h2
      have := core.inside a b (by omega) (by omega) hik (fun l hl => by
        have := hall _ (hget l (by omega))
        rw [← hxg a ha, ← hxg b hb, ← hxg l (by omega)] at this
        exact this) h1 h2
      beta_reduce at this
      rw [this, hxg a ha, hxg b hb, hline a ha, hline b hb]
    · intro i k hi hk hik hall h1
      obtain ⟨a, ha, rfl⟩ := hpos i hi
      obtain ⟨b, hb, rfl⟩ := hpos k hk
      rw [← hxg a ha, ← hxg b hb] at hik
      rw [← hxg a ha] at h1
      have := core.below a b (by omega) (by omega) hik (fun l hl => by
        rcases hall _ (hget l (by omega)) with h | h
        · left
          rw [List.getD_eq_getElem _ _ (by omega), List.getD_eq_getElem _ _ (by omega)] at h
          exact (List.Nodup.getElem_inj_iff hnd).1 h
        · right
          rw [← hxg b hb, ← hxg l (by omega)] at h
          exact h) h1
      beta_reduce at this
      rw [this, hxg a ha, hxg b hb, hline a ha, hline b hb]
    · intro i k hi hk hik hall h1
      obtain ⟨a, ha, rfl⟩ := hpos i hi
      obtain ⟨b, hb, rfl⟩ := hpos k hk
      rw [← hxg a ha, ← hxg b hb] at hik
      rw [← hxg b hb] at h1
      have := core.above a b (by omega) (by omega) hik (fun l hl => by
        rcases hall _ (hget l (by omega)) with h | h
        · left
          rw [List.getD_eq_getElem _ _ (by omega), List.getD_eq_getElem _ _ (by omega)] at h
          exact (List.Nodup.getElem_inj_iff hnd).1 h
        · right
          rw [← hxg a ha, ← hxg l (by omega)] at h
          exact h) h1
      beta_reduce at this
      rw [this, hxg a ha, hxg b hb, hline a ha, hline b hb]

/-! ### Consequences of `Interpolates` for strictly increasing nodes -/

theorem find_interval {x : List K} (hn : 2 ≤ x.length) (v : K) (h0 : x.getD 0 0 ≤ v) (h1 : v ≤ x.getD (x.length - 1) 0) :
    ∃ k, k + 1 < x.length ∧ x.getD k 0 ≤ v ∧ v ≤ x.getD (k + 1) 0 := by
  by_contra hc
  push Not at hc
  have : ∀ m, m < x.length - 1 → x.getD (m + 1) 0 < v := by
    intro m
    induction m with
    | zero => intro h; exact hc 0 (by omega) h0
    | succ m ih => intro h; exact hc (m + 1) (by omega) (ih (by omega)).le
  have := this (x.length - 2) (by omega)
  rw [show x.length - 2 + 1 = x.length - 1 by omega] at this
  exact absurd this (not_lt.2 h1)

theorem neighbours {x : List K} (hx : x.Pairwise (· < ·)) (k : ℕ) (hk : k + 1 < x.length) :
    x.getD k 0 < x.getD (k + 1) 0 ∧ ∀ l, l < x.length → x.getD l 0 ≤ x.getD k 0 ∨ x.getD (k + 1) 0 ≤ x.getD l 0 := by
  constructor
  · rw [List.getD_eq_getElem _ _ (by omega), List.getD_eq_getElem _ _ hk]
    exact List.pairwise_iff_getElem.1 hx k (k + 1) (by omega) hk (by omega)
  · intro l hl
    have hle : x.Pairwise (· ≤ ·) := hx.imp le_of_lt
    by_cases h : l ≤ k
    · left; exact sorted_get_le hle h (by omega)
    · right; exact sorted_get_le hle (by omega) hl

/-- **C43** The data are reproduced at the nodes, whatever the fill value. -/
theorem C43_nodes {x : List K} (hn : 2 ≤ x.length) (hx : x.Pairwise (· < ·)) {fill : Fill K} {line : ℕ → K} {v out : K}
    (h : Interpolates (fun k => x.getD k 0) x.length fill line v out) (k : ℕ) (hk : k < x.length) (hv : v = x.getD k 0) :
    out = line k := by
  by_cases hl : k + 1 < x.length
  · obtain ⟨h1, h2⟩ := neighbours hx k hl
    rw [h.inside k (k + 1) hk hl h1 h2 hv.ge (hv.le.trans h1.le)]
    unfold lineAt
    rw [hv, sub_self, zero_div, mul_zero, add_zero]
  · obtain ⟨m, rfl⟩ : ∃ m, k = m + 1 := ⟨k - 1, by omega⟩
    obtain ⟨h1, h2⟩ := neighbours hx m hk
    rw [h.inside m (m + 1) (by omega) hk h1 h2 (h1.le.trans hv.ge) hv.le]
    unfold lineAt
    rw [hv, div_self (sub_pos.2 h1).ne']
    ring

/-- **C43** No new extrema: inside the range of the nodes the result lies between any bounds of the data. -/
theorem C43_bounds {x : List K} (hn : 2 ≤ x.length) (hx : x.Pairwise (· < ·)) {fill : Fill K} {line : ℕ → K} {v out : K}
    (h : Interpolates (fun k => x.getD k 0) x.length fill line v out) (h0 : x.getD 0 0 ≤ v) (h1 : v ≤ x.getD (x.length - 1) 0)
    (lo hi : K) (hb : ∀ k, k < x.length → lo ≤ line k ∧ line k ≤ hi) : lo ≤ out ∧ out ≤ hi := by
  obtain ⟨k, hk, ha, hb'⟩ := find_interval hn v h0 h1
  obtain ⟨h2, h3⟩ := neighbours hx k hk
  rw [h.inside k (k + 1) (by omega) hk h2 h3 ha hb']
  unfold lineAt
  have hpos := sub_pos.2 h2
  set t := (v - x.getD k 0) / (x.getD (k + 1) 0 - x.getD k 0)
  have t0 : 0 ≤ t := div_nonneg (sub_nonneg.2 ha) hpos.le
  have t1 : t ≤ 1 := (div_le_one hpos).2 (by linarith)
  have b0 := hb k (by omega)
  have b1 := hb (k + 1) hk
  constructor
  · nlinarith [mul_nonneg t0 (sub_nonneg.2 b1.1), mul_nonneg (sub_nonneg.2 t1) (sub_nonneg.2 b0.1)]
  · nlinarith [mul_nonneg t0 (sub_nonneg.2 b1.2), mul_nonneg (sub_nonneg.2 t1) (sub_nonneg.2 b0.2)]

/-- **C43** Exact for straight lines: inside the range always, and everywhere with `fill_value='extrapolate'`. -/
theorem C43_affine {x : List K} (hn : 2 ≤ x.length) (hx : x.Pairwise (· < ·)) {fill : Fill K} {line : ℕ → K} {v out : K}
    (h : Interpolates (fun k => x.getD k 0) x.length fill line v out) (a b : K) (hl : ∀ k, k < x.length → line k = a + b * x.getD k 0)
    (hv : (x.getD 0 0 ≤ v ∧ v ≤ x.getD (x.length - 1) 0) ∨ fill = .str "extrapolate") : out = a + b * v := by
  have key : ∀ k, k + 1 < x.length → lineAt (x.getD k 0) (line k) (x.getD (k + 1) 0) (line (k + 1)) v = a + b * v := by
    intro k hk
    obtain ⟨h2, _⟩ := neighbours hx k hk
    unfold lineAt
    rw [hl k (by omega), hl (k + 1) hk]
    have := (sub_pos.2 h2).ne'
    field_simp
    ring
  have mid : x.getD 0 0 ≤ v ∧ v ≤ x.getD (x.length - 1) 0 → out = a + b * v := by
    rintro ⟨h0, h1⟩
    obtain ⟨k, hk, ha, hb'⟩ := find_interval hn v h0 h1
    obtain ⟨h2, h3⟩ := neighbours hx k hk
    rw [h.inside k (k + 1) (by omega) hk h2 h3 ha hb']
    exact key k hk
  rcases hv with hv | hv
  · exact mid hv
  · subst hv
    rcases lt_or_ge v (x.getD 0 0) with h0 | h0
    · obtain ⟨h2, h3⟩ := neighbours hx 0 (by omega)
      rw [h.below 0 1 (by omega) (by omega) h2 (fun l hl' => by
        by_cases e : l = 0
        · exact Or.inl e
        · right; exact sorted_get_le (hx.imp le_of_lt) (by omega) hl') h0]
      simp only [outsideValue, if_true]
      exact key 0 (by omega)
    · rcases lt_or_ge (x.getD (x.length - 1) 0) v with h1 | h1
      · obtain ⟨m, hm⟩ : ∃ m, x.length = m + 2 := ⟨x.length - 2, by omega⟩
        rw [show x.length - 1 = m + 1 by omega] at h1
        obtain ⟨h2, h3⟩ := neighbours hx m (by omega)
        rw [h.above m (m + 1) (by omega) (by omega) h2 (fun l hl' => by
          by_cases e : l = m + 1
          · exact Or.inl e
          · right; exact sorted_get_le (hx.imp le_of_lt) (by omega) (by omega)) h1]
        simp only [outsideValue, if_true]
        exact key m (by omega)
      · exact mid ⟨h0, h1⟩

/-- **C43** Which arguments are accepted (`assume_sorted=True`). -/
theorem C43_accepts (x : List K) (y : LArr K) (axis : ℤ) (fill : Fill K) :
    (∃ f, interp1d x y axis fill true = .ok f) ↔
      (fill = .str "extrapolate" ∨ fill = .str "constant_extrapolate" ∨ ∃ c, fill = .scalar c) ∧ 2 ≤ x.length ∧
      ∃ ax, normalizeAxis axis y.shape.length = .ok ax ∧ y.shape.getD ax 0 = x.length := by
  have hparse : (∃ m, fill.parse = .ok m) ↔
      (fill = .str "extrapolate" ∨ fill = .str "constant_extrapolate" ∨ ∃ c, fill = .scalar c) := by
    cases fill with
    | str s =>
      simp only [Fill.parse]
      constructor
      · rintro ⟨m, h⟩
        split_ifs at h with h1 h2
        · simp [h1]
        · simp [h2]
      · rintro (h | h | ⟨c, h⟩)
        · cases h; simp
        · cases h; simp
        · cases h
    | scalar c => exact ⟨fun _ => Or.inr (Or.inr ⟨c, rfl⟩), fun _ => ⟨_, rfl⟩⟩
    | array =>
      constructor
      · rintro ⟨m, h⟩; cases h
      · rintro (h | h | ⟨c, h⟩) <;> cases h
  rw [← hparse]
  unfold interp1d
  constructor
  · rintro ⟨f, hf⟩
    cases hm : fill.parse with
    | error e => rw [hm] at hf; cases hf
    | ok mode =>
      rw [hm] at hf
      simp only [Except.bind_ok, if_true] at hf
      by_cases hn : x.length < 2
      · rw [if_pos hn] at hf; cases hf
      rw [if_neg hn] at hf
      cases hax : normalizeAxis axis y.shape.length with
      | error e => rw [hax] at hf; dsimp only at hf; split_ifs at hf
      | ok ax =>
        rw [hax] at hf
        dsimp only at hf
        split_ifs at hf with hs
        exact ⟨⟨mode, rfl⟩, by omega, ax, rfl, by omega⟩
  · rintro ⟨⟨m, hm⟩, hn, ax, hax, hs⟩
    rw [hm]
    simp only [Except.bind_ok, if_true]
    rw [if_neg (by omega), hax]
    dsimp only
    rw [if_neg (by omega)]
    exact ⟨_, rfl⟩

/-- **C43** A defect: with `assume_sorted=False` the sizes of `x` and `y` are never compared, because `y` is re-indexed with as many
positions as `x` has before the check; surplus entries of `y` are dropped and missing ones are NaN. -/
theorem C43_unsorted_size_unchecked (x : List K) (y : LArr K) (axis : ℤ) (c : K) (hn : 2 ≤ x.length) (ax : Fin y.shape.length)
    (hax : normalizeAxis axis y.shape.length = .ok ax) : ∃ f, interp1d x y axis (.scalar c) false = .ok f := by
  unfold interp1d
  simp only [Fill.parse, Except.bind_ok, Bool.false_eq_true, if_false]
  rw [if_neg (by omega), hax]
  dsimp only
  rw [if_neg]
  · exact ⟨_, rfl⟩
  · push Not
    show _ = (y.shape.set ax (argsort x).length).getD ax 0
    rw [List.getD_eq_getElem _ _ (by simp), List.getElem_set_self, List.length_map]

/-! ### Non-vacuity -/

/-- three nodes, a 2×3 array -/
def y23 : LArr ℚ := ⟨[2, 3], fun i => i.getD 0 0 + (i.getD 1 0) ^ 2⟩

example : ∃ f, interp1d ([0, 1, 3] : List ℚ) y23 (-1) (.str "constant_extrapolate") true = .ok f :=
  (C43_accepts _ _ _ _).2 ⟨by simp, by simp, ⟨1, by decide⟩, rfl, rfl⟩

example : ([0, 1, 3] : List ℚ).Pairwise (· < ·) := by norm_num

example : ∃ f, interp1d ([3, 0, 1] : List ℚ) y23 1 (.scalar 0) false = .ok f ∧ ([3, 0, 1] : List ℚ).Nodup ∧
    y23.shape.getD 1 0 = ([3, 0, 1] : List ℚ).length := by
  obtain ⟨f, hf⟩ := C43_unsorted_size_unchecked ([3, 0, 1] : List ℚ) y23 1 0 (by simp) ⟨1, by decide⟩ rfl
  exact ⟨f, hf, by norm_num, rfl⟩

end JaxCfd
