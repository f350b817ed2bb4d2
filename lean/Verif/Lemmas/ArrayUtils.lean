import Verif.Lemmas.Reshape
import Mathlib.Data.List.Forall2

/-! Lemmas about slicing, splitting and concatenating leaves. -/

namespace JaxCfd
variable {d : ℕ} {K : Type}

theorem mapM_eq_ok {α β : Type} (f : α → Except Err β) (l : List α) (r : List β) :
    l.mapM f = .ok r ↔ List.Forall₂ (fun x y => f x = .ok y) l r := by
  induction l generalizing r with
  | nil =>
    rw [List.mapM_nil]
    constructor
    · intro h; have := Except.ok.inj h; subst this; exact List.Forall₂.nil
    · intro h; cases h; rfl
  | cons x l ih =>
    rw [List.mapM_cons]
    simp only [Except.bind_eq_ok]
    constructor
    · rintro ⟨y, hy, ys, hys, h⟩
      have := Except.ok.inj h; subst this
      exact List.Forall₂.cons hy ((ih ys).1 hys)
    · intro h
      cases h with
      | cons hy hys => exact ⟨_, hy, _, (ih _).2 hys, rfl⟩

theorem forall2_getElem {α β : Type} {R : α → β → Prop} {l : List α} {r : List β} (h : List.Forall₂ R l r) :
    l.length = r.length ∧ ∀ k (h1 : k < l.length) (h2 : k < r.length), R l[k] r[k] := by
  refine ⟨h.length_eq, ?_⟩
  intro k h1 h2
  exact (List.forall₂_iff_get.1 h).2 k h1 h2

theorem forall2_of_getElem {α β : Type} {R : α → β → Prop} {l : List α} {r : List β} (hl : l.length = r.length)
    (h : ∀ k (h1 : k < l.length) (h2 : k < r.length), R l[k] r[k]) : List.Forall₂ R l r :=
  List.forall₂_iff_get.2 ⟨hl, fun i h1 h2 => h i h1 h2⟩

theorem AnyArr.eqv_mk {x y : NArr d K} (h : x.Eqv y) : AnyArr.Eqv ⟨d, x⟩ ⟨d, y⟩ := ⟨rfl, h⟩

theorem AnyArr.Eqv.refl (x : AnyArr K) : x.Eqv x := ⟨rfl, rfl, fun _ _ => rfl⟩

theorem normalizeAxis_eq_ok {axis : ℤ} {n : ℕ} {a : Fin n} :
    normalizeAxis axis n = .ok a ↔ (axis = a ∨ axis = (a : ℤ) - n) := by
  unfold normalizeAxis
  have ha := a.2
  by_cases h : -(n : ℤ) ≤ axis ∧ axis < n
  · rw [dif_pos h]
    simp only [Except.ok.injEq, Fin.ext_iff]
    split <;> omega
  · rw [dif_neg h]
    constructor
    · intro h'; cases h'
    · intro h'; omega

theorem castQ_self (x : NArr d K) : AnyArr.cast? d ⟨d, x⟩ = .ok x := by
  simp [AnyArr.cast?]

theorem concatLeaves_ok {axis : ℤ} {ax : Fin d} (hax : normalizeAxis axis d = .ok ax) (x : NArr d K) (xs : List (NArr d K))
    (hs : ∀ y ∈ xs, ∀ b, b ≠ ax → y.shape b = x.shape b) :
    concatLeaves axis (⟨d, x⟩ :: xs.map fun y => (⟨d, y⟩ : AnyArr K)) =
      .ok ⟨d, ⟨Function.update x.shape ax (((x :: xs).map fun y => y.shape ax).sum), concatData ax x xs⟩⟩ := by
  unfold concatLeaves
  have hm : (xs.map fun y => (⟨d, y⟩ : AnyArr K)).mapM (AnyArr.cast? d) = .ok xs := by
    rw [mapM_eq_ok]
    apply forall2_of_getElem (by simp)
    intro k h1 h2
    simp only [List.getElem_map]
    exact castQ_self _
  dsimp only
  rw [hm, hax]
  simp only [Except.bind_ok, concatN]
  rw [if_pos hs]
  rfl

/-- concatenating trees leaf by leaf -/
theorem concatAlongAxis_ok {axis : ℤ} (t : List (AnyArr K)) (ts : List (List (AnyArr K))) (hl : ∀ u ∈ ts, u.length = t.length)
    (r : List (AnyArr K)) (hr : r.length = t.length)
    (h : ∀ k (hk : k < t.length) (hk' : k < r.length), concatLeaves axis ((t :: ts).filterMap fun u => u[k]?) = .ok r[k]) :
    concatAlongAxis (t :: ts) axis = .ok r := by
  unfold concatAlongAxis
  dsimp only
  rw [if_pos hl, mapM_eq_ok]
  apply forall2_of_getElem (by simp [hr])
  intro k h1 h2
  simp only [List.getElem_range]
  exact h k (by omega) h2

theorem sliceAlongAxis_eq_ok {inputs : List (AnyArr K)} {axis : ℤ} {s : PySlice} {b : Bool} {r : List (AnyArr K)} :
    sliceAlongAxis inputs axis s b = .ok r ↔ (b = true → (inputs.map Sigma.fst).dedup.length = 1) ∧
      List.Forall₂ (fun x y => ∃ ax, normalizeAxis axis x.1 = .ok ax ∧ y = ⟨x.1, sliceAx x.2 ax s⟩) inputs r := by
  unfold sliceAlongAxis
  by_cases h : b = true ∧ (inputs.map Sigma.fst).dedup.length ≠ 1
  · rw [if_pos h]
    constructor
    · intro h'; cases h'
    · rintro ⟨h', _⟩; exact absurd (h' h.1) h.2
  · rw [if_neg h, mapM_eq_ok]
    have e : (b = true → (inputs.map Sigma.fst).dedup.length = 1) := by
      intro hb; by_contra hc; exact h ⟨hb, hc⟩
    have : (fun (x y : AnyArr K) => (do let ax ← normalizeAxis axis x.1; return ⟨x.1, sliceAx x.2 ax s⟩ : Except Err (AnyArr K)) = .ok y) =
        (fun x y => ∃ ax, normalizeAxis axis x.1 = .ok ax ∧ y = ⟨x.1, sliceAx x.2 ax s⟩) := by
      funext x y
      apply propext
      rw [Except.bind_eq_ok]
      constructor
      · rintro ⟨ax, h1, h2⟩; exact ⟨ax, h1, (Except.ok.inj h2).symm⟩
      · rintro ⟨ax, h1, rfl⟩; exact ⟨ax, h1, rfl⟩
    rw [this]
    exact ⟨fun h => ⟨e, h⟩, fun h => h.2⟩

theorem concat_slices (x : NArr d K) (ax : Fin d) (k : ℤ) :
    (⟨Function.update (sliceAx x ax ⟨some 0, some k, 1⟩).shape ax (([sliceAx x ax ⟨some 0, some k, 1⟩,
        sliceAx x ax ⟨some k, none, 1⟩].map fun y => y.shape ax).sum),
      concatData ax (sliceAx x ax ⟨some 0, some k, 1⟩) [sliceAx x ax ⟨some k, none, 1⟩]⟩ : NArr d K).Eqv x := by
  have hlo : (clipBound (x.shape ax) 0) = 0 := by simp [clipBound]
  obtain ⟨c, hc⟩ : ∃ c, c = clipBound (x.shape ax) k := ⟨_, rfl⟩
  have c0 : 0 ≤ c := by rw [hc]; simp [clipBound]
  have c1 : c ≤ x.shape ax := by rw [hc]; simp only [clipBound]; omega
  have s1 : (sliceAx x ax ⟨some 0, some k, 1⟩).shape ax = c.toNat := by
    simp [sliceAx, PySlice.len, PySlice.lo, PySlice.hi, hlo, ← hc]
  have s2 : (sliceAx x ax ⟨some k, none, 1⟩).shape ax = (x.shape ax - c).toNat := by
    simp [sliceAx, PySlice.len, PySlice.lo, PySlice.hi, ← hc]
  constructor
  · funext b
    by_cases hb : b = ax
    · subst hb
      simp only [Function.update_self, List.map_cons, List.map_nil, List.sum_cons, List.sum_nil, s1, s2]
      omega
    · simp [Function.update_of_ne hb, sliceAx]
  · intro i hi
    simp only [concatData, s1]
    by_cases h : i ax < (c.toNat : ℕ)
    · rw [if_pos h]
      simp [sliceAx, PySlice.lo, hlo]
    · rw [if_neg h]
      have e : (c.toNat : ℤ) = c := by omega
      simp [sliceAx, PySlice.lo, ← hc, e]

theorem concat_pieces (x : NArr d K) (ax : Fin d) (m t : ℕ) (i : Idx d) (h0 : 0 ≤ i ax) (h1 : i ax ≤ m) :
    concatData ax (pieceAx x ax t) ((List.range' (t + 1) m).map (pieceAx x ax)) i = x.data (Function.update i ax (i ax + t)) := by
  induction m generalizing t i with
  | zero =>
    rfl
  | succ m ih =>
    rw [List.range'_succ, List.map_cons, concatData]
    have hs : (pieceAx x ax t).shape ax = 1 := by simp [pieceAx]
    rw [hs]
    by_cases h : i ax < ((1 : ℕ) : ℤ)
    · rw [if_pos h]
      rfl
    · rw [if_neg h, ih (t + 1) _ (by simp at h ⊢; omega) (by simp; push_cast at h1; omega)]
      simp

end JaxCfd
