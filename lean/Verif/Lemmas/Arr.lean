import Verif.Spec
import Mathlib.Tactic.Ring
import Mathlib.Tactic.Linarith

set_option linter.unusedSectionVars false

namespace JaxCfd

variable {d : ℕ} {K : Type}

theorem mem_box {s : Fin d → ℕ} {i : Idx d} : i ∈ box s ↔ InR s i := by
  simp [box, InR, Fintype.mem_piFinset]

@[simp] theorem update_get (i : Idx d) (ax : Fin d) : Function.update i ax (i ax) = i :=
  Function.update_eq_self ax i

theorem InR.update {s : Fin d → ℕ} {i : Idx d} (h : InR s i) (ax : Fin d) {j : ℤ}
    (h0 : 0 ≤ j) (h1 : j < s ax) : InR s (Function.update i ax j) := by
  intro a
  by_cases ha : a = ax
  · subst ha; simp [h0, h1]
  · simp [Function.update_of_ne ha, h a]

theorem InR.emod {s : Fin d → ℕ} {i : Idx d} (h : InR s i) (ax : Fin d) (j : ℤ)
    (hs : 0 < s ax) : InR s (Function.update i ax (j % (s ax : ℤ))) :=
  h.update ax (Int.emod_nonneg _ (by omega)) (Int.emod_lt_of_pos _ (by omega))

theorem rollIdx_inR {s : Fin d → ℕ} {i : Idx d} (h : InR s i) (ax : Fin d) (k : ℤ) :
    InR s (rollIdx s ax k i) :=
  h.emod ax _ (by have := h ax; omega)

theorem rollIdx_zero {s : Fin d → ℕ} {i : Idx d} (h : InR s i) (ax : Fin d) :
    rollIdx s ax 0 i = i := by
  have := h ax
  simp only [rollIdx, add_zero]
  rw [Int.emod_eq_of_lt this.1 this.2, update_get]

theorem rollIdx_add (s : Fin d → ℕ) (ax : Fin d) (k l : ℤ) (i : Idx d) :
    rollIdx s ax k (rollIdx s ax l i) = rollIdx s ax (l + k) i := by
  simp [rollIdx, add_assoc]

theorem rollIdx_comm (s : Fin d → ℕ) (a b : Fin d) (k l : ℤ) (i : Idx d) :
    rollIdx s a k (rollIdx s b l i) = rollIdx s b l (rollIdx s a k i) := by
  by_cases h : a = b
  · subst h; rw [rollIdx_add, rollIdx_add, add_comm]
  · simp only [rollIdx]
    rw [Function.update_of_ne h, Function.update_of_ne (Ne.symm h), Function.update_comm h]

theorem rollIdx_size {s : Fin d → ℕ} {i : Idx d} (h : InR s i) (ax : Fin d) (m : ℤ) :
    rollIdx s ax (m * s ax) i = i := by
  have := h ax
  simp only [rollIdx]
  rw [Int.add_mul_emod_self_right, Int.emod_eq_of_lt this.1 this.2, update_get]

/-- Re-indexing a sum over the whole array by a cyclic shift. -/
theorem sum_roll {M : Type*} [AddCommMonoid M] (s : Fin d → ℕ) (ax : Fin d) (k : ℤ) (f : Idx d → M) :
    ∑ i ∈ box s, f (rollIdx s ax k i) = ∑ i ∈ box s, f i := by
  refine Finset.sum_nbij' (rollIdx s ax k) (rollIdx s ax (-k)) ?_ ?_ ?_ ?_ ?_
  · intro i hi; exact mem_box.2 (rollIdx_inR (mem_box.1 hi) _ _)
  · intro i hi; exact mem_box.2 (rollIdx_inR (mem_box.1 hi) _ _)
  · intro i hi; rw [rollIdx_add, add_neg_cancel, rollIdx_zero (mem_box.1 hi)]
  · intro i hi; rw [rollIdx_add, neg_add_cancel, rollIdx_zero (mem_box.1 hi)]
  · intro i _; rfl

namespace NArr.Eqv
theorem refl (a : NArr d K) : a.Eqv a := ⟨rfl, fun _ _ => rfl⟩
theorem symm {a b : NArr d K} (h : a.Eqv b) : b.Eqv a :=
  ⟨h.1.symm, fun i hi => (h.2 i (by rw [h.1]; exact hi)).symm⟩
theorem trans {a b c : NArr d K} (h : a.Eqv b) (g : b.Eqv c) : a.Eqv c :=
  ⟨h.1.trans g.1, fun i hi => (h.2 i hi).trans (g.2 i (by rw [← h.1]; exact hi))⟩
end NArr.Eqv

theorem sliceInDim_ok (x : NArr d K) (ax : Fin d) (s l : ℤ) (h0 : 0 ≤ s) (h1 : s ≤ l)
    (h2 : l ≤ x.shape ax) :
    sliceInDim x s l ax = .ok ⟨Function.update x.shape ax (l - s).toNat,
      fun i => x.data (Function.update i ax (i ax + s))⟩ := by
  unfold sliceInDim
  have e1 : ¬ s < 0 := by omega
  have e2 : ¬ l < 0 := by omega
  simp only [e1, e2, if_false, h0, h1, h2, and_self, if_true]

theorem jnpPad_ok (x : NArr d K) (ax : Fin d) (w : ℤ × ℤ) (m : PadMode K) (h1 : 0 ≤ w.1)
    (h2 : 0 ≤ w.2) (h : m.needsData = false ∨ 0 < x.shape ax) :
    jnpPad x ax w m =
      .ok ⟨Function.update x.shape ax (x.shape ax + w.1.toNat + w.2.toNat), padData x ax w.1 m⟩ := by
  unfold jnpPad
  rw [if_neg (by omega), if_neg]
  rintro ⟨e, e', -⟩
  rcases h with h | h
  · simp [h] at e
  · omega

/-- Whatever the mode, a successful `jnp.pad` has the obvious shape. -/
theorem jnpPad_shape {x y : NArr d K} {ax : Fin d} {w : ℤ × ℤ} {m : PadMode K}
    (h : jnpPad x ax w m = .ok y) :
    0 ≤ w.1 ∧ 0 ≤ w.2 ∧
      y.shape = Function.update x.shape ax (x.shape ax + w.1.toNat + w.2.toNat) ∧
      y.data = padData x ax w.1 m := by
  unfold jnpPad at h
  split at h
  · cases h
  · split at h
    · cases h
    · injection h with h
      subst h
      refine ⟨by omega, by omega, rfl, rfl⟩

/-- Inside the original array, `jnp.pad` copies the data, for every mode. -/
theorem padData_interior (x : NArr d K) (ax : Fin d) (lo : ℤ) (m : PadMode K) (i : Idx d)
    (h0 : lo ≤ i ax) (h1 : i ax < lo + x.shape ax) :
    padData x ax lo m i = x.data (Function.update i ax (i ax - lo)) := by
  have hn : 0 < (x.shape ax : ℤ) := by omega
  cases m with
  | const vlo vhi =>
    simp only [padData]
    rw [if_neg (by omega), if_pos h1]
  | wrap =>
    simp only [padData, padIdxData, wrapIdx]
    rw [Int.emod_eq_of_lt (by omega) (by omega)]
  | symmetric =>
    simp only [padData, padIdxData, symIdx]
    rw [Int.emod_eq_of_lt (by omega) (by omega), if_pos (by omega)]
  | reflect =>
    simp only [padData, padIdxData, reflIdx]
    split
    · rename_i hle
      have : i ax - lo = 0 := by omega
      rw [this]
    · rcases Nat.lt_or_ge 2 (x.shape ax) with h3 | h3
      · rw [Int.emod_eq_of_lt (by omega) (by omega), if_pos (by omega)]
      · have h2 : x.shape ax = 2 := by omega
        rw [h2] at *
        have : (2 : ℤ) * ((2 : ℕ) - 1) = 2 := by norm_num
        rw [this]
        rw [Int.emod_eq_of_lt (by omega) (by omega), if_pos (by omega)]
  | edge =>
    simp only [padData, padIdxData, edgeIdx]
    congr 2
    omega

end JaxCfd
