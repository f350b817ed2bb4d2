import Verif.Model.ArrayUtils
import Verif.Lemmas.Boundaries
import Mathlib.Data.List.OfFn
import Mathlib.Data.List.GetD
import Mathlib.Tactic.Ring
import Mathlib.Tactic.Linarith
import Mathlib.Tactic.Positivity

/-! Lemmas about row-major reshaping. -/

namespace JaxCfd
variable {d : ℕ} {K : Type}

theorem unravelIdx_length (ss : List ℕ) (t : ℤ) : (unravelIdx ss t).length = ss.length := by
  induction ss generalizing t with
  | nil => rfl
  | cons s ss ih => simp [unravelIdx, ih]

theorem unravelIdx_add (ss : List ℕ) (k r : ℤ) : unravelIdx ss (k * (ss.prod : ℕ) + r) = unravelIdx ss r := by
  induction ss generalizing k r with
  | nil => rfl
  | cons s ss ih =>
    simp only [unravelIdx, List.prod_cons]
    congr 1
    · by_cases hP : (ss.prod : ℤ) = 0
      · simp [hP]
      · rw [show k * ((s * ss.prod : ℕ) : ℤ) + r = r + (k * s) * (ss.prod : ℤ) by push_cast; ring, Int.add_mul_ediv_right _ _ hP,
          mul_comm k, Int.add_mul_emod_self_left]
    · rw [show k * ((s * ss.prod : ℕ) : ℤ) + r = (k * s) * (ss.prod : ℤ) + r by push_cast; ring]
      exact ih _ _

theorem LInR.length {ss : List ℕ} {is : List ℤ} (h : LInR ss is) : is.length = ss.length := by
  induction ss generalizing is with
  | nil => cases is with
    | nil => rfl
    | cons i is => exact h.elim
  | cons s ss ih => cases is with
    | nil => exact h.elim
    | cons i is => simp [ih h.2]

theorem ravelIdx_bounds {ss : List ℕ} {is : List ℤ} (h : LInR ss is) : 0 ≤ ravelIdx ss is ∧ ravelIdx ss is < (ss.prod : ℕ) := by
  induction ss generalizing is with
  | nil => cases is with
    | nil => simp [ravelIdx]
    | cons i is => exact h.elim
  | cons s ss ih => cases is with
    | nil => exact h.elim
    | cons i is =>
      obtain ⟨⟨h0, h1⟩, h2⟩ := h
      obtain ⟨i0, i1⟩ := ih h2
      simp only [ravelIdx, List.prod_cons]
      rw [Nat.cast_mul]
      constructor
      · have := mul_nonneg h0 (Int.natCast_nonneg ss.prod)
        omega
      · nlinarith

theorem unravel_ravel {ss : List ℕ} {is : List ℤ} (h : LInR ss is) : unravelIdx ss (ravelIdx ss is) = is := by
  induction ss generalizing is with
  | nil => cases is with
    | nil => rfl
    | cons i is => exact h.elim
  | cons s ss ih => cases is with
    | nil => exact h.elim
    | cons i is =>
      obtain ⟨⟨h0, h1⟩, h2⟩ := h
      obtain ⟨b0, b1⟩ := ravelIdx_bounds h2
      simp only [ravelIdx, unravelIdx]
      rw [unravelIdx_add, ih h2]
      congr 1
      rw [add_comm, Int.add_mul_ediv_right _ _ (by omega), Int.ediv_eq_zero_of_lt b0 b1, zero_add]
      exact Int.emod_eq_of_lt h0 h1

theorem unravelIdx_inR {ss : List ℕ} (h : ∀ s ∈ ss, 0 < s) (t : ℤ) : LInR ss (unravelIdx ss t) := by
  induction ss with
  | nil => trivial
  | cons s ss ih =>
    have hs : (0 : ℤ) < s := by exact_mod_cast h s (by simp)
    exact ⟨⟨Int.emod_nonneg _ (by omega), Int.emod_lt_of_pos _ hs⟩, ih (fun s' hs' => h s' (by simp [hs']))⟩

theorem ravel_unravel {ss : List ℕ} {t : ℤ} (h0 : 0 ≤ t) (h1 : t < (ss.prod : ℕ)) : ravelIdx ss (unravelIdx ss t) = t := by
  induction ss generalizing t with
  | nil =>
    simp only [List.prod_nil, Nat.cast_one] at h1
    simp [ravelIdx, unravelIdx]; omega
  | cons s ss ih =>
    simp only [ravelIdx, unravelIdx]
    rw [List.prod_cons, Nat.cast_mul] at h1
    have hP : (0 : ℤ) < (ss.prod : ℕ) := by
      by_contra hc
      have : ((ss.prod : ℕ) : ℤ) = 0 := by omega
      rw [this] at h1; simp at h1; omega
    have hq : t / (ss.prod : ℕ) < s := Int.ediv_lt_of_lt_mul hP h1
    rw [Int.emod_eq_of_lt (Int.ediv_nonneg h0 hP.le) hq]
    have e : unravelIdx ss t = unravelIdx ss (t % (ss.prod : ℕ)) := by
      conv_lhs => rw [← Int.ediv_mul_add_emod t (ss.prod : ℕ)]
      exact unravelIdx_add _ _ _
    rw [e, ih (Int.emod_nonneg _ hP.ne') (Int.emod_lt_of_pos _ hP)]
    exact Int.ediv_mul_add_emod t _

theorem lInR_ofFn {s : Fin d → ℕ} {i : Idx d} (h : InR s i) : LInR (List.ofFn s) (List.ofFn i) := by
  induction d with
  | zero => simp [LInR]
  | succ d ih =>
    rw [List.ofFn_succ, List.ofFn_succ]
    exact ⟨h 0, ih (fun a => h a.succ)⟩

theorem ofFn_getD (i : Idx d) (a : Fin d) : (List.ofFn i).getD a 0 = i a := by
  rw [List.getD_eq_getElem _ _ (by simp)]
  simp

theorem toL_data (x : NArr d K) (i : Idx d) : x.toL.data (List.ofFn i) = x.data i := by
  show x.data _ = x.data i
  congr 1
  funext a
  exact ofFn_getD i a

theorem prod_interleave (m b : Fin d → ℕ) : (interleave (List.ofFn m) (List.ofFn b)).prod = (List.ofFn fun a => m a * b a).prod := by
  induction d with
  | zero => simp [interleave]
  | succ d ih =>
    simp only [List.ofFn_succ, interleave, List.prod_cons]
    rw [ih]
    ring

theorem ravel_interleave (m b : Fin d → ℕ) (q r : Idx d) :
    ravelIdx (interleave (List.ofFn m) (List.ofFn b)) (interleave (List.ofFn q) (List.ofFn r)) =
      ravelIdx (List.ofFn fun a => m a * b a) (List.ofFn fun a => q a * b a + r a) := by
  induction d with
  | zero => simp [interleave, ravelIdx]
  | succ d ih =>
    simp only [List.ofFn_succ, interleave, ravelIdx, List.prod_cons]
    rw [ih, prod_interleave]
    push_cast
    ring

theorem blockReduce_ok (x : NArr d K) (block : Fin d → ℕ) (red : NArr d K → K) (hpos : ∀ a, 0 < block a)
    (hdvd : ∀ a, block a ∣ x.shape a) :
    ∃ y : Idx d → Idx d → K, blockReduce x block red = .ok ⟨fun a => x.shape a / block a, fun q => red ⟨block, y q⟩⟩ ∧
      ∀ q r : Idx d, InR (fun a => x.shape a / block a) q → InR block r → y q r = x.data fun a => q a * block a + r a := by
  have hs : x.shape = fun a => x.shape a / block a * block a := funext fun a => (Nat.div_mul_cancel (hdvd a)).symm
  unfold blockReduce
  rw [if_neg (by push Not; exact fun a => (hpos a).ne'),
    if_neg (by push Not; exact fun a => Nat.mod_eq_zero_of_dvd (hdvd a))]
  unfold LArr.reshape
  rw [if_neg (by
    rw [not_ne_iff, prod_interleave]
    show _ = (List.ofFn x.shape).prod
    rw [← hs])]
  refine ⟨_, rfl, ?_⟩
  intro q r hq hr
  dsimp only
  rw [ravel_interleave]
  show x.toL.data (unravelIdx (List.ofFn x.shape) _) = _
  rw [← hs, unravel_ravel, toL_data]
  apply lInR_ofFn
  intro a
  have h1 := hq a
  have h2 := hr a
  have h3 := Nat.div_mul_cancel (hdvd a)
  have h4 : ((x.shape a / block a : ℕ) : ℤ) * block a = x.shape a := by exact_mod_cast h3
  dsimp only at h1 ⊢
  constructor
  · have := h1.1; have := h2.1; positivity
  · nlinarith

end JaxCfd
