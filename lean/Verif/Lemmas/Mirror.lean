import Verif.SpecMirror
import Verif.Props.FluidConvergence
import Verif.Props.AccuracyVanLeer

/-!
# Reflections on a periodic staggered box
-/

namespace JaxCfd
variable {d : ℕ} {s : Fin d → ℕ} {h : Fin d → ℝ} {ax : Fin d}

theorem mirrorIdx_inR (hs : ∀ a, 0 < s a) (m : ℤ) {i : Idx d} (hi : InR s i) : InR s (mirrorIdx s ax m i) := by
  intro a
  unfold mirrorIdx
  rcases eq_or_ne a ax with rfl | ha
  · rw [Function.update_self]
    exact ⟨Int.emod_nonneg _ (by have := hs a; omega), Int.emod_lt_of_pos _ (by have := hs a; omega)⟩
  · rw [Function.update_of_ne ha]
    exact hi a

theorem mirrorIdx_roll (m k : ℤ) (i : Idx d) : mirrorIdx s ax m (rollIdx s ax k i) = mirrorIdx s ax (m + k) i := by
  unfold mirrorIdx rollIdx
  rw [Function.update_self, Function.update_idem]
  congr 1
  have e : (-(i ax + k) - m : ℤ) = -(i ax) - (m + k) := by ring
  exact e ▸ ((Int.mod_modEq (i ax + k) (s ax)).neg.sub_right m)

theorem rollIdx_mirror (m k : ℤ) (i : Idx d) : rollIdx s ax k (mirrorIdx s ax m i) = mirrorIdx s ax (m - k) i := by
  unfold mirrorIdx rollIdx
  rw [Function.update_self, Function.update_idem]
  congr 1
  have e : (-(i ax) - m + k : ℤ) = -(i ax) - (m - k) := by ring
  exact e ▸ ((Int.mod_modEq (-(i ax) - m) (s ax)).add_right k)

theorem mirrorIdx_roll_of_ne {b : Fin d} (hb : b ≠ ax) (m k : ℤ) (i : Idx d) : mirrorIdx s ax m (rollIdx s b k i) = rollIdx s b k (mirrorIdx s ax m i) := by
  unfold mirrorIdx rollIdx
  rw [Function.update_of_ne hb.symm, Function.update_of_ne hb, Function.update_comm hb]

theorem mirrorIdx_mirror (m : ℤ) {i : Idx d} (hi : InR s i) : mirrorIdx s ax m (mirrorIdx s ax m i) = i := by
  unfold mirrorIdx
  rw [Function.update_self, Function.update_idem]
  have e : (-((-(i ax) - m) % (s ax : ℤ)) - m) % (s ax : ℤ) = i ax := by
    have h1 := ((Int.mod_modEq (-(i ax) - m) (s ax)).neg.sub_right m)
    rw [show (-(-(i ax) - m) - m : ℤ) = i ax by ring] at h1
    exact Eq.trans h1 (Int.emod_eq_of_lt (hi ax).1 (hi ax).2)
  rw [e, Function.update_eq_self]

theorem mirrorSign_sq (ax a : Fin d) : mirrorSign ax a * mirrorSign ax a = 1 := by
  unfold mirrorSign
  split_ifs <;> norm_num

/-- Twice the offset along `ax` of component `a` of a staggered field. -/
def faceIndex (ax a : Fin d) : ℤ := if a = ax then 2 else 1

/-- A staggered field and its mirror image. -/
def MirrorData (s : Fin d → ℕ) (ax : Fin d) (u u' : Fin d → Idx d → ℝ) : Prop :=
  ∀ a i, InR s i → u' a i = mirrorSign ax a * u a (mirrorIdx s ax (faceIndex ax a) i)

/-- A difference of fluxes of a quantity with parity `σ` and index `m`. -/
theorem flux_mirror {F F' : Idx d → ℝ} {σ : ℝ} {m : ℤ} (a : Fin d) (hF : ∀ i, InR s i → F' i = if a = ax then -σ * F (mirrorIdx s ax (m + 1) i) else σ * F (mirrorIdx s ax m i))
    {i : Idx d} (hi : InR s i) : F' i - F' (rollIdx s a (-1) i) = σ * (F (mirrorIdx s ax m i) - F (rollIdx s a (-1) (mirrorIdx s ax m i))) := by
  rw [hF i hi, hF _ (rollIdx_inR hi a (-1))]
  rcases eq_or_ne a ax with rfl | ha
  · rw [if_pos rfl, if_pos rfl, mirrorIdx_roll, rollIdx_mirror, show m + 1 + -1 = m by ring, show m - -1 = m + 1 by ring]
    ring
  · rw [if_neg ha, if_neg ha, mirrorIdx_roll_of_ne ha]
    ring

theorem dDiv_mirror {u u' : Fin d → Idx d → ℝ} (hu : MirrorData s ax u u') {i : Idx d} (hi : InR s i) : dDiv s h u' i = dDiv s h u (mirrorIdx s ax 1 i) := by
  unfold dDiv
  refine Finset.sum_congr rfl fun a _ => ?_
  have := flux_mirror (F := u a) (F' := u' a) (σ := 1) (m := 1) (ax := ax) a (fun j hj => by
    rw [hu a j hj]
    unfold mirrorSign faceIndex
    split_ifs <;> rfl) hi
  rw [this, one_mul]

theorem dGrad_mirror {q q' : Idx d → ℝ} (hq : ∀ i, InR s i → q' i = q (mirrorIdx s ax 1 i)) : MirrorData s ax (dGrad s h q) (dGrad s h q') := by
  intro a i hi
  unfold dGrad mirrorSign faceIndex
  rw [hq i hi, hq _ (rollIdx_inR hi a 1)]
  rcases eq_or_ne a ax with rfl | ha
  · rw [if_pos rfl, if_pos rfl, mirrorIdx_roll, rollIdx_mirror, show (1 + 1 : ℤ) = 2 by norm_num, show (2 - 1 : ℤ) = 1 by norm_num]
    ring
  · rw [if_neg ha, if_neg ha, mirrorIdx_roll_of_ne ha, one_mul]

theorem dLap_mirror {f f' : Idx d → ℝ} {σ : ℝ} {m : ℤ} (hf : ∀ i, InR s i → f' i = σ * f (mirrorIdx s ax m i)) {i : Idx d} (hi : InR s i) :
    dLap s h f' i = σ * dLap s h f (mirrorIdx s ax m i) := by
  unfold dLap
  rw [Finset.mul_sum]
  refine Finset.sum_congr rfl fun a _ => ?_
  rw [hf i hi, hf _ (rollIdx_inR hi a 1), hf _ (rollIdx_inR hi a (-1))]
  rcases eq_or_ne a ax with rfl | ha
  · rw [mirrorIdx_roll, mirrorIdx_roll, rollIdx_mirror, rollIdx_mirror, sub_neg_eq_add, ← sub_eq_add_neg]
    ring
  · rw [mirrorIdx_roll_of_ne ha, mirrorIdx_roll_of_ne ha]
    ring

theorem mid_mirror {f f' : Idx d → ℝ} {σ : ℝ} {m : ℤ} (hf : ∀ i, InR s i → f' i = σ * f (mirrorIdx s ax m i)) (b : Fin d) {i : Idx d} (hi : InR s i) :
    mid s b f' i = σ * mid s b f (mirrorIdx s ax (m + if b = ax then 1 else 0) i) := by
  unfold mid
  rw [hf i hi, hf _ (rollIdx_inR hi b 1)]
  rcases eq_or_ne b ax with rfl | hb
  · rw [if_pos rfl, mirrorIdx_roll, rollIdx_mirror, add_sub_cancel_right]
    ring
  · rw [if_neg hb, add_zero, mirrorIdx_roll_of_ne hb]
    ring

theorem limFlux_reverse (l u cm c cp cpp : ℝ) : limFlux l (-u) cpp cp c cm = -limFlux l u cm c cp cpp := by
  unfold limFlux
  rw [abs_neg]
  rcases lt_trichotomy u 0 with hu | rfl | hu
  · rw [if_pos (by linarith), if_neg (by linarith), show cp - cpp = -(cpp - cp) by ring, show c - cp = -(cp - c) by ring, limited_neg]
    ring
  · simp
  · rw [if_neg (by linarith), if_pos hu, show cm - c = -(c - cm) by ring, show c - cp = -(cp - c) by ring, limited_neg]
    ring

theorem limFlux_neg (l u cm c cp cpp : ℝ) : limFlux l u (-cm) (-c) (-cp) (-cpp) = -limFlux l u cm c cp cpp := by
  unfold limFlux
  have e : limited (if 0 < u then -c - -cm else -cpp - -cp) (-cp - -c) = -limited (if 0 < u then c - cm else cpp - cp) (cp - c) := by
    rw [← limited_neg]
    congr 1
    · split_ifs <;> ring
    · ring
  rw [e]
  ring

theorem limFlux_sign {σ : ℝ} (hσ : σ = 1 ∨ σ = -1) (l u cm c cp cpp : ℝ) : limFlux l u (σ * cm) (σ * c) (σ * cp) (σ * cpp) = σ * limFlux l u cm c cp cpp := by
  rcases hσ with rfl | rfl
  · simp only [one_mul]
  · simp only [neg_one_mul]
    exact limFlux_neg l u cm c cp cpp

/-- The van Leer fluxes of a mirrored field. -/
theorem limFlux_mirror {c c' A A' : Idx d → ℝ} {σ : ℝ} (hσ : σ = 1 ∨ σ = -1) {m : ℤ} (a : Fin d) (l : ℝ) (hc : ∀ i, InR s i → c' i = σ * c (mirrorIdx s ax m i))
    (hA : ∀ i, InR s i → A' i = mirrorSign ax a * A (mirrorIdx s ax (m + if a = ax then 1 else 0) i)) {i : Idx d} (hi : InR s i) :
    limFlux l (A' i) (c' (rollIdx s a (-1) i)) (c' i) (c' (rollIdx s a 1 i)) (c' (rollIdx s a 2 i)) =
      if a = ax then -σ * (fun j => limFlux l (A j) (c (rollIdx s a (-1) j)) (c j) (c (rollIdx s a 1 j)) (c (rollIdx s a 2 j))) (mirrorIdx s ax (m + 1) i)
      else σ * (fun j => limFlux l (A j) (c (rollIdx s a (-1) j)) (c j) (c (rollIdx s a 1 j)) (c (rollIdx s a 2 j))) (mirrorIdx s ax m i) := by
  rw [hA i hi, hc i hi, hc _ (rollIdx_inR hi a (-1)), hc _ (rollIdx_inR hi a 1), hc _ (rollIdx_inR hi a 2), limFlux_sign hσ]
  dsimp only
  unfold mirrorSign
  rcases eq_or_ne a ax with rfl | ha
  · rw [if_pos rfl, if_pos rfl, if_pos rfl, mirrorIdx_roll, mirrorIdx_roll, mirrorIdx_roll, rollIdx_mirror, rollIdx_mirror, rollIdx_mirror, neg_one_mul,
      show m + 1 - -1 = m + 2 by ring, show m + 1 - 1 = m by ring, show m + 1 - 2 = m + -1 by ring, limFlux_reverse]
    ring
  · rw [if_neg ha, if_neg ha, if_neg ha, mirrorIdx_roll_of_ne ha, mirrorIdx_roll_of_ne ha, mirrorIdx_roll_of_ne ha, one_mul, add_zero]

end JaxCfd
