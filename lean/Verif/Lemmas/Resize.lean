import Verif.Model.Resize
import Verif.Lemmas.Reshape
import Verif.Lemmas.Pressure
import Mathlib.Algebra.BigOperators.Field

/-! Lemmas about downsampling. -/

set_option linter.unusedSectionVars false

namespace JaxCfd
variable {d : ℕ} {K : Type}

/-- Sums over a box, one axis last. -/
theorem sum_box_split {M : Type*} [AddCommMonoid M] (s : Fin d → ℕ) (a : Fin d) (F : Idx d → M) :
    ∑ r ∈ box s, F r = ∑ r ∈ box (Function.update s a 1), ∑ t ∈ Finset.Ico (0 : ℤ) (s a), F (Function.update r a t) := by
  rw [← Finset.sum_product']
  refine Finset.sum_nbij' (fun r => (Function.update r a 0, r a)) (fun p => Function.update p.1 a p.2) ?_ ?_ ?_ ?_ ?_
  · intro r hr
    have hr := mem_box.1 hr
    rw [Finset.mem_product]
    refine ⟨mem_box.2 fun b => ?_, ?_⟩
    · by_cases hb : b = a
      · subst hb; simp
      · simpa [hb] using hr b
    · simpa using hr a
  · rintro ⟨r, t⟩ h
    rw [Finset.mem_product] at h
    have hr := mem_box.1 h.1
    have ht := h.2
    simp only [Finset.mem_Ico] at ht
    refine mem_box.2 fun b => ?_
    by_cases hb : b = a
    · subst hb; simpa using ht
    · have := hr b
      simpa [hb] using this
  · intro r _; simp
  · rintro ⟨r, t⟩ h
    rw [Finset.mem_product] at h
    have hr := mem_box.1 h.1 a
    simp only [Function.update_self] at hr
    have : r a = 0 := by push_cast at hr; omega
    simp [← this]
  · intro r _; simp

theorem sum_Ico_telescope [AddCommGroup K] (n : ℕ) (G : ℤ → K) : ∑ t ∈ Finset.Ico (0 : ℤ) n, (G t - G (t - 1)) = G (n - 1) - G (-1) := by
  induction n with
  | zero => simp
  | succ n ih =>
    have : Finset.Ico (0 : ℤ) ((n + 1 : ℕ) : ℤ) = insert (n : ℤ) (Finset.Ico (0 : ℤ) n) := by
      ext t; simp; omega
    rw [this, Finset.sum_insert (by simp), ih]
    push_cast
    rw [add_sub_cancel_right]
    abel

/-- Telescoping along one axis of a box. -/
theorem sum_box_telescope [AddCommGroup K] (s : Fin d → ℕ) (a : Fin d) (E : Idx d → K) :
    ∑ r ∈ box s, (E r - E (Function.update r a (r a - 1))) =
      ∑ r ∈ box (Function.update s a 1), (E (Function.update r a ((s a : ℤ) - 1)) - E (Function.update r a (-1))) := by
  rw [sum_box_split s a]
  refine Finset.sum_congr rfl fun r _ => ?_
  have := sum_Ico_telescope (s a) (fun t => E (Function.update r a t))
  rw [← this]
  refine Finset.sum_congr rfl fun t _ => ?_
  simp

section
variable [Field K]

/-- Where the fine faces of the coarse face `q` are. -/
def faceIdx (f : ℕ) (a : Fin d) (q r : Idx d) : Idx d := fun b => if b = a then q b * f + (f - 1) else q b * f + r b

theorem sliceAx_shape_dvd (u : NArr d K) (a : Fin d) (f : ℕ) (hf : f ≠ 0) (m : Fin d → ℕ) (hm : ∀ b, u.shape b = m b * f) :
    (sliceAx u a ⟨some ((f : ℤ) - 1), none, f⟩).shape = Function.update u.shape a (m a) := by
  unfold sliceAx PySlice.len PySlice.hi PySlice.lo clipBound
  dsimp only
  congr 1
  simp only [Option.map_some, Option.map_none, Option.getD_none, Option.getD_some]
  have h := hm a
  rcases Nat.eq_zero_or_pos (m a) with h0 | h0
  · rw [h0, zero_mul] at h
    rw [h, h0]
    have : ¬ (f : ℤ) - 1 < 0 := by omega
    rw [if_neg this]
    have e : max 0 (min ((0 : ℕ) : ℤ) ((f : ℤ) - 1)) = 0 := by
      rw [min_eq_left (by omega)]; simp
    rw [e]
    have : ((((0 : ℕ) : ℤ) - 0 + f - 1) / (f : ℤ)) = 0 := Int.ediv_eq_zero_of_lt (by omega) (by omega)
    rw [this]; rfl
  · have h1 : f ≤ u.shape a := by rw [h]; exact Nat.le_mul_of_pos_left f h0
    rw [if_neg (by omega), min_eq_right (by omega), max_eq_right (by omega), h]
    have : (((m a * f : ℕ) : ℤ) - ((f : ℤ) - 1) + f - 1) / (f : ℤ) = m a := by
      rw [show (((m a * f : ℕ) : ℤ) - ((f : ℤ) - 1) + f - 1) = (m a : ℤ) * f by push_cast; ring]
      exact Int.mul_ediv_cancel _ (by omega)
    rw [this]; simp

theorem downsampleComponent_ok (u : NArr d K) (a : Fin d) (f : ℕ) (hf : f ≠ 0) (m : Fin d → ℕ) (hm : ∀ b, u.shape b = m b * f) :
    ∃ w, downsampleComponent u a f = .ok ⟨m, w⟩ ∧ ∀ q : Idx d, InR m q →
      w q = (∑ r ∈ box (Function.update (fun _ => f) a 1), u.data (faceIdx f a q r)) / (f : K) ^ (d - 1) := by
  unfold downsampleComponent
  rw [if_neg hf]
  set x := sliceAx u a ⟨some ((f : ℤ) - 1), none, f⟩ with hx
  have hsx : x.shape = Function.update u.shape a (m a) := sliceAx_shape_dvd u a f hf m hm
  have hblock : (fun j => if j = a then 1 else f) = Function.update (fun _ : Fin d => f) a 1 := by
    funext j
    by_cases h : j = a
    · subst h; simp
    · simp [h]
  rw [hblock]
  obtain ⟨y, hy, hq⟩ := blockReduce_ok x (Function.update (fun _ : Fin d => f) a 1) meanN
    (fun b => by
      by_cases h : b = a
      · subst h; simp
      · simp [h]; omega)
    (fun b => by
      by_cases h : b = a
      · subst h; simp
      · simp only [Function.update_of_ne h, hsx, hm b]; exact Dvd.intro_left _ rfl)
  have hs : (fun b => x.shape b / Function.update (fun _ : Fin d => f) a 1 b) = m := by
    funext b
    by_cases h : b = a
    · subst h; simp [hsx]
    · simp only [Function.update_of_ne h, hsx, hm b]
      exact Nat.mul_div_cancel _ (by omega)
  rw [hs] at hq
  refine ⟨_, by rw [hy, hs], ?_⟩
  intro q hqr
  unfold meanN NArr.sum
  dsimp only
  have hprod : (∏ b, Function.update (fun _ : Fin d => f) a 1 b : ℕ) = f ^ (d - 1) := by
    rw [Finset.prod_update_of_mem (Finset.mem_univ a)]
    simp [Finset.card_sdiff]
  rw [hprod, Nat.cast_pow]
  congr 1
  refine Finset.sum_congr rfl fun r hr => ?_
  rw [hq q r hqr (mem_box.1 hr), hx]
  unfold sliceAx
  dsimp only
  congr 1
  funext b
  have hra := mem_box.1 hr a
  simp only [Function.update_self] at hra
  unfold faceIdx
  by_cases h : b = a
  · subst h
    have hr0 : r b = 0 := by push_cast at hra; omega
    simp only [Function.update_self, if_true]
    rw [hr0]
    have hqa := hqr b
    have h1 : f ≤ u.shape b := by rw [hm b]; exact Nat.le_mul_of_pos_left f (by omega)
    unfold PySlice.lo clipBound
    simp only [Option.map_some, Option.getD_some]
    rw [if_neg (by omega), min_eq_right (by omega), max_eq_right (by omega)]
    push_cast
    ring
  · simp only [h, if_false, ne_eq, not_false_eq_true, Function.update_of_ne]

end

section
variable [Field K] [HasNan K] [DecidableEq K]

/-- The face value of the normal component, also for the face just below the domain. -/
def faceVal (v : GridVariable d K) (a : Fin d) (i : Idx d) : K :=
  if 0 ≤ i a then v.array.data i
  else if v.bc.types a = (.periodic, .periodic) then v.array.data (Function.update i a (i a + v.array.grid.shape a))
  else (v.bc.constantValues a).1

theorem below_faceVal {g : Grid d K} {v : Fin d → GridVariable d K} (h : VelocityField g v) (a : Fin d) (i : Idx d) (hi : InR g.shape i) :
    (v a).below a i = faceVal (v a) a (Function.update i a (i a - 1)) := by
  rw [h.below_normal]
  unfold faceVal
  have hia := hi a
  have hg := (h.2.1 a).1
  by_cases hp : (v a).bc.types a = (.periodic, .periodic)
  · simp only [hp, if_true, Function.update_self]
    unfold rollIdx
    by_cases h0 : 0 < i a
    · rw [if_pos (by omega), Int.emod_eq_of_lt (by omega) (by omega)]; rfl
    · rw [if_neg (by omega), hg]
      have : i a = 0 := by omega
      rw [this, zero_add, Int.emod_eq_add_self_emod, Int.emod_eq_of_lt (by omega) (by omega)]
      congr 1
      funext b
      by_cases hb : b = a
      · subst hb; simp
      · simp [hb]
  · simp only [hp, if_false, Function.update_self]
    by_cases h0 : 0 < i a
    · rw [if_pos h0, if_pos (by omega)]
    · rw [if_neg h0, if_neg (by omega)]

theorem self_faceVal {g : Grid d K} (v : GridVariable d K) (a : Fin d) (i : Idx d) (hi : InR g.shape i) :
    v.array.data i = faceVal v a i := by
  unfold faceVal
  rw [if_pos (hi a).1]

end

end JaxCfd
