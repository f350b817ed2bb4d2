import Verif.Model.Patches
import Verif.Lemmas.Tiling
import Mathlib.Algebra.Order.BigOperators.Ring.Finset

/-! Lemmas about stencils and patches. -/

namespace JaxCfd
variable {d : ℕ} {K : Type}

theorem pyRange_length (lo hi : ℤ) : (pyRange lo hi).length = (hi - lo).toNat := by simp [pyRange]

theorem pyRange_getD {lo hi : ℤ} {j : ℕ} (h : (j : ℤ) < hi - lo) (e : ℤ) : (pyRange lo hi).getD j e = lo + j := by
  unfold pyRange
  rw [List.getD_eq_getElem _ _ (by simp; omega), List.getElem_map, List.getElem_range]

theorem cartesian_length {α : Type} (ls : List (List α)) : (cartesian ls).length = (ls.map List.length).prod := by
  induction ls with
  | nil => rfl
  | cons l ls ih =>
    simp only [cartesian, List.length_flatMap, List.length_map, List.map_cons, List.prod_cons, ih]
    simp

theorem flatMap_map_getD {α β γ : Type} (l : List α) (m : List β) (f : α → β → List γ) (q r : ℕ) (hq : q < l.length) (hr : r < m.length) (e : α) (e' : β) :
    (l.flatMap fun x => m.map fun y => f x y).getD (q * m.length + r) [] = f (l.getD q e) (m.getD r e') := by
  induction l generalizing q with
  | nil => simp at hq
  | cons x l ih =>
    rw [List.flatMap_cons]
    cases q with
    | zero =>
      rw [zero_mul, zero_add, List.getD_append _ _ _ _ (by simpa using hr), List.getD_cons_zero]
      rw [List.getD_eq_getElem _ _ (by simpa using hr), List.getD_eq_getElem _ _ hr]
      simp
    | succ q =>
      rw [List.getD_append_right _ _ _ _ (by simp; nlinarith)]
      rw [List.length_map, show (q + 1) * m.length + r - m.length = q * m.length + r by rw [add_mul, one_mul]; omega]
      rw [ih q (by simpa using hq), List.getD_cons_succ]

/-- The `p`-th element of `itertools.product` picks from each list the entry with the row-major index. -/
theorem cartesian_getD {α : Type} (z : α) (ls : List (List α)) (p : ℕ) (hp : p < (ls.map List.length).prod) :
    (cartesian ls).getD p [] = List.zipWith (fun l (j : ℤ) => l.getD j.toNat z) ls (unravelIdx (ls.map List.length) p) := by
  induction ls generalizing p with
  | nil =>
    simp only [List.map_nil, List.prod_nil] at hp
    obtain rfl : p = 0 := by omega
    rfl
  | cons l ls ih =>
    simp only [List.map_cons, List.prod_cons] at hp
    set P := (ls.map List.length).prod with hP
    have hPpos : 0 < P := by
      rcases Nat.eq_zero_or_pos P with h | h
      · rw [h] at hp; omega
      · exact h
    have hr : p % P < P := Nat.mod_lt _ hPpos
    have hq : p / P < l.length := Nat.div_lt_of_lt_mul (by rw [mul_comm]; exact hp)
    simp only [cartesian, List.map_cons, unravelIdx, List.zipWith_cons_cons]
    have e := flatMap_map_getD l (cartesian ls) (fun x r => x :: r) (p / P) (p % P) hq (by rw [cartesian_length]; exact hr) z []
    rw [cartesian_length, ← hP, Nat.div_add_mod'] at e
    rw [e, ih _ hr]
    have h1 : ((p : ℤ) / ((ls.map List.length).prod : ℕ) % (l.length : ℤ)).toNat = p / P := by
      rw [← hP, ← Int.natCast_ediv, ← Int.natCast_emod, Int.toNat_natCast, Nat.mod_eq_of_lt hq]
    have h2 : unravelIdx (ls.map List.length) (p : ℤ) = unravelIdx (ls.map List.length) ((p % P : ℕ) : ℤ) := by
      have := unravelIdx_add (ls.map List.length) ((p / P : ℕ) : ℤ) ((p % P : ℕ) : ℤ)
      rw [← hP, ← Nat.cast_mul, ← Nat.cast_add, Nat.div_add_mod'] at this
      exact this
    rw [h1, ← h2]

theorem zipWith_ofFn_getD {α β : Type} (z : β) (ls : Fin d → α) (l : List ℤ) (h : l.length = d) (a : Fin d) (f : α → ℤ → β) :
    (List.zipWith f (List.ofFn ls) l).getD a z = f (ls a) (l.getD a 0) := by
  rw [List.getD_eq_getElem _ _ (by simp [h]), List.getElem_zipWith, List.getElem_ofFn, List.getD_eq_getElem _ _ (by omega)]

/-- `-(k-1)//2 .. k//2`: the two ways of writing the cells of a stencil. -/
theorem pyRange_patch {k : ℕ} (hk : 0 < k) : pyRange (-(k : ℤ) / 2 + 1) ((k : ℤ) / 2 + 1) = stencilCells k := by
  unfold stencilCells
  dsimp only
  have h1 : (-(k : ℤ) / 2 + 1) = -(((k : ℤ) - 1) / 2) := by omega
  have h2 : ((k : ℤ) / 2 + 1) = -(((k : ℤ) - 1) / 2) + k := by omega
  rw [h1, h2]

theorem stencilCells_length (k : ℕ) : (stencilCells k).length = k := by
  unfold stencilCells
  rw [pyRange_length]
  simp

theorem stencilCells_getD {k j : ℕ} (h : j < k) (e : ℤ) : (stencilCells k).getD j e = (j : ℤ) - ((k - 1) / 2 : ℕ) := by
  unfold stencilCells
  dsimp only
  rw [pyRange_getD (by omega)]
  omega

theorem extractPatchesRoll_ok (x : Chan d K) (k : Fin d → ℕ) (hk : ∀ a, 0 < k a) (hc : x.chan = 1) :
    ∃ z : Chan d K, extractPatchesRoll x k = .ok z ∧ z.shape = x.shape ∧ z.chan = (List.ofFn k).prod ∧
      ∀ (i : Idx d) (p : ℤ), InR x.shape i → 0 ≤ p → p < (List.ofFn k).prod →
        z.data i p = x.per (fun a => i a + (tileIdx k p a - ((k a - 1) / 2 : ℕ))) 0 := by
  unfold extractPatchesRoll
  rw [if_neg (by simpa using hc)]
  dsimp only
  have hr : (List.ofFn fun a => pyRange (-(k a : ℤ) / 2 + 1) ((k a : ℤ) / 2 + 1)) = List.ofFn fun a => stencilCells (k a) := by
    congr 1
    funext a
    exact pyRange_patch (hk a)
  rw [hr]
  have hl : ((List.ofFn fun a => stencilCells (k a)).map List.length) = List.ofFn k := by
    rw [List.map_ofFn]
    congr 1
    funext a
    exact stencilCells_length _
  have hlen : (cartesian (List.ofFn fun a => stencilCells (k a))).length = (List.ofFn k).prod := by
    rw [cartesian_length, hl]
  have hpos : 0 < (List.ofFn k).prod := by
    rw [List.prod_ofFn]
    exact Finset.prod_pos fun a _ => hk a
  rw [if_neg (by
    intro h
    have := congrArg List.length h
    rw [List.length_map, hlen] at this
    simp only [List.length_nil] at this
    omega)]
  refine ⟨_, rfl, rfl, by rw [List.length_map, hlen], ?_⟩
  intro i p hi p0 p1
  obtain ⟨p, rfl⟩ := Int.eq_ofNat_of_zero_le p0
  have p1' : p < (List.ofFn k).prod := by exact_mod_cast p1
  dsimp only
  unfold Chan.per
  congr 1
  funext a
  congr 1
  have e0 : ((cartesian (List.ofFn fun a => stencilCells (k a))).map fun s => s.map fun t => -t).getD p [] =
      ((cartesian (List.ofFn fun a => stencilCells (k a)))[p]'(by rw [hlen]; exact p1')).map fun t => -t := by
    rw [List.getD_eq_getElem _ _ (by rw [List.length_map, hlen]; exact p1'), List.getElem_map]
  rw [Int.toNat_natCast, e0]
  have e1 : (cartesian (List.ofFn fun a => stencilCells (k a)))[p]'(by rw [hlen]; exact p1') = (cartesian (List.ofFn fun a => stencilCells (k a))).getD p [] := by
    rw [List.getD_eq_getElem]
  rw [e1, cartesian_getD 0 _ _ (by rw [hl]; exact p1'), hl]
  have hu := inR_of_lInR (s := k) (unravelIdx_inR (fun s hs => by rw [List.mem_ofFn] at hs; obtain ⟨a, rfl⟩ := hs; exact hk a) (p : ℤ)) a
  have hlu : (unravelIdx (List.ofFn k) (p : ℤ)).length = d := by rw [unravelIdx_length, List.length_ofFn]
  have e2 : (List.map (fun t => -t) (List.zipWith (fun l (j : ℤ) => l.getD j.toNat 0) (List.ofFn fun a => stencilCells (k a)) (unravelIdx (List.ofFn k) (p : ℤ)))).getD a 0
      = -((List.zipWith (fun l (j : ℤ) => l.getD j.toNat 0) (List.ofFn fun a => stencilCells (k a)) (unravelIdx (List.ofFn k) (p : ℤ))).getD a 0) := by
    rw [List.getD_eq_getElem _ _ (by simp [hlu]), List.getD_eq_getElem _ _ (by simp [hlu]), List.getElem_map]
  rw [e2, zipWith_ofFn_getD 0 _ _ hlu]
  have e3 : tileIdx k (p : ℤ) a = (unravelIdx (List.ofFn k) (p : ℤ)).getD a 0 := rfl
  dsimp only at hu
  rw [← e3] at hu ⊢
  rw [stencilCells_getD (by omega)]
  have : ((tileIdx k (p : ℤ) a).toNat : ℤ) = tileIdx k (p : ℤ) a := Int.toNat_of_nonneg hu.1
  rw [this]
  ring

theorem getPadding_sum {k : ℕ} (hk : 0 < k) : (getPadding k).1 = (k - 1) / 2 ∧ (getPadding k).2 = k / 2 ∧
    (getPadding k).1 + (getPadding k).2 + 1 = k := by
  unfold getPadding
  dsimp only
  omega

theorem sum_patchKernel [Semiring K] (k : Fin d → ℕ) (p : ℤ) (hk : ∀ a, 0 < k a) (p0 : 0 ≤ p) (p1 : p < (List.ofFn k).prod) (f : Idx d → K) :
    ∑ o ∈ Fintype.piFinset fun a => Finset.range (k a), f (fun a => (o a : ℤ)) * patchKernel k (fun a => (o a : ℤ)) 0 p = f (tileIdx k p) := by
  classical
  have hu := tileIdx_inR hk p
  rw [Finset.sum_eq_single (fun a => (tileIdx k p a).toNat)]
  · have e : (fun a => ((tileIdx k p a).toNat : ℤ)) = tileIdx k p := funext fun a => Int.toNat_of_nonneg (hu a).1
    rw [e]
    unfold patchKernel
    rw [if_pos, mul_one]
    exact (tileNum_tileIdx p0 p1).symm
  · intro o ho hne
    unfold patchKernel
    rw [if_neg, mul_zero]
    intro h
    apply hne
    have hin : InR k fun a => (o a : ℤ) := by
      intro a
      have := Finset.mem_range.1 (Fintype.mem_piFinset.1 ho a)
      dsimp only
      omega
    have := tileIdx_tileNum hin
    unfold tileNum at this
    rw [← h] at this
    funext a
    rw [this]
    simp
  · intro h
    exfalso
    apply h
    rw [Fintype.mem_piFinset]
    intro a
    rw [Finset.mem_range]
    have := hu a
    omega

end JaxCfd
