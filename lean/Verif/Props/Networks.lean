import Verif.Model.Networks
import Verif.Props.Encoders
import Verif.Lemmas.FD
import Verif.Lemmas.Advection
import Verif.Lemmas.Interp

/-!
# C62: networks and learned correctors
-/

namespace JaxCfd.ML
variable {d : ℕ}

/-! ## Lists -/

theorem flatMap_getElem? {α β : Type} (f : α → List β) (m : ℕ) (hf : ∀ a, (f a).length = m) : ∀ (l : List α) (i j : ℕ) (_ : j < m),
    (l.flatMap f)[i * m + j]? = (l[i]?).bind fun a => (f a)[j]?
  | [], i, j, _ => by simp
  | a :: l, i, j, hj => by
      rw [List.flatMap_cons]
      cases i with
      | zero =>
        rw [List.getElem?_append_left (by rw [hf]; omega)]
        simp
      | succ i =>
        rw [List.getElem?_append_right (by rw [hf]; nlinarith), hf]
        have e : (i + 1) * m + j - m = i * m + j := by
          have : (i + 1) * m = i * m + m := by ring
          omega
        rw [e, flatMap_getElem? f m hf l i j hj]
        simp

theorem flatMap_length {α β : Type} (f : α → List β) (m : ℕ) (hf : ∀ a, (f a).length = m) (l : List α) : (l.flatMap f).length = l.length * m := by
  induction l with
  | nil => simp
  | cons a l ih => rw [List.flatMap_cons, List.length_append, ih, hf, List.length_cons]; ring

theorem groupsOf_getElem? {α : Type} {k : ℕ} (hk : k ≠ 0) : ∀ (m i : ℕ) (xs : List α), i < m →
    (groupsOf k m xs)[i]? = if (i + 1) * k ≤ xs.length then some ((xs.drop (i * k)).take k) else none
  | 0, i, xs, h => absurd h (Nat.not_lt_zero i)
  | m + 1, i, xs, h => by
      unfold groupsOf
      by_cases hl : xs.length < k
      · rw [if_pos (Or.inr hl), if_neg (by nlinarith)]
        simp
      · rw [if_neg (by push Not; exact ⟨hk, by omega⟩)]
        cases i with
        | zero => rw [if_pos (by omega)]; simp
        | succ i =>
          rw [List.getElem?_cons_succ, groupsOf_getElem? hk m i _ (by omega), List.length_drop, List.drop_drop]
          have e1 : ((i + 1) * k ≤ xs.length - k) ↔ ((i + 1 + 1) * k ≤ xs.length) := by
            have : (i + 1 + 1) * k = (i + 1) * k + k := by ring
            omega
          have e2 : k + i * k = (i + 1) * k := by ring
          simp only [e1, e2]

theorem fluxOffsets_length (g : Grid d ℝ) : (fluxOffsets g).length = d * d := by
  unfold fluxOffsets
  rw [flatMap_length _ d (by simp)]
  simp

theorem fluxOffsets_getElem? (g : Grid d ℝ) (i j : Fin d) : (fluxOffsets g)[(i : ℕ) * d + j]? =
    some (Function.update (g.cellFaces j) i (g.cellFaces j i + 1 / 2)) := by
  unfold fluxOffsets
  rw [flatMap_getElem? _ d (by simp) _ _ _ j.2]
  simp

/-! ## Flux corrections -/

section
variable [HasNan ℝ]

/-- Channel `c` of an array with channels. -/
def channel (x : NArr (d + 1) ℝ) (c : ℕ) : NArr d ℝ := ⟨fun b => x.shape b.castSucc, fun i => x.data (Fin.snoc (α := fun _ => ℤ) i (c : ℤ))⟩

theorem split_channels (x : NArr (d + 1) ℝ) (h : x.shape (Fin.last d) ≠ 0) :
    channelsSplitDecoder x = .ok (List.ofFn fun c : Fin (x.shape (Fin.last d)) => channel x c) := if_neg h

theorem flux_row (g : Grid d ℝ) (hd : d ≠ 0) (x : NArr (d + 1) ℝ) (i : Fin d) :
    (groupsOf d ((((List.ofFn fun c : Fin (x.shape (Fin.last d)) => channel x c).zip (fluxOffsets g)).map fun p => (⟨p.1, p.2, g⟩ : GridArray d ℝ))).length
      (((List.ofFn fun c : Fin (x.shape (Fin.last d)) => channel x c).zip (fluxOffsets g)).map fun p => (⟨p.1, p.2, g⟩ : GridArray d ℝ)))[i.1]? =
    if (i.1 + 1) * d ≤ x.shape (Fin.last d) then some (List.ofFn fun j : Fin d =>
      (⟨channel x (i.1 * d + j), Function.update (g.cellFaces j) i (g.cellFaces j i + 1 / 2), g⟩ : GridArray d ℝ)) else none := by
  set arrays := (((List.ofFn fun c : Fin (x.shape (Fin.last d)) => channel x c).zip (fluxOffsets g)).map fun p => (⟨p.1, p.2, g⟩ : GridArray d ℝ)) with ha
  have hlen : arrays.length = min (x.shape (Fin.last d)) (d * d) := by rw [ha]; simp [fluxOffsets_length]
  have hle : (i.1 + 1) * d ≤ d * d := Nat.mul_le_mul_right d i.2
  by_cases hc : (i.1 + 1) * d ≤ x.shape (Fin.last d)
  · rw [if_pos hc]
    have hpos : 0 < d := Nat.pos_of_ne_zero hd
    have him : i.1 < arrays.length := by
      rw [hlen]
      have h1 : i.1 + 1 ≤ (i.1 + 1) * d := Nat.le_mul_of_pos_right _ hpos
      omega
    rw [groupsOf_getElem? hd _ _ _ him, if_pos (by rw [hlen]; omega)]
    congr 1
    refine List.ext_getElem ?_ fun j h1 h2 => ?_
    · rw [List.length_take, List.length_drop, hlen, List.length_ofFn]
      have : (i.1 + 1) * d = i.1 * d + d := by ring
      omega
    · have hj : j < d := by simpa using h2
      rw [List.getElem_take, List.getElem_drop, List.getElem_ofFn]
      have hb : i.1 * d + j < x.shape (Fin.last d) := by
        have : (i.1 + 1) * d = i.1 * d + d := by ring
        omega
      have ho := fluxOffsets_getElem? g i ⟨j, hj⟩
      have hb' : i.1 * d + j < (fluxOffsets g).length := by
        rw [fluxOffsets_length]
        have : (i.1 + 1) * d = i.1 * d + d := by ring
        omega
      rw [List.getElem?_eq_getElem hb'] at ho
      have ho' := Option.some.inj ho
      simp only [ha, List.getElem_map, List.getElem_zip, List.getElem_ofFn]
      rw [ho']
  · rw [if_neg hc]
    by_cases him : i.1 < arrays.length
    · rw [groupsOf_getElem? hd _ _ _ him, if_neg (by rw [hlen]; omega)]
    · rw [List.getElem?_eq_none_iff]
      have hgl : ∀ (m : ℕ) (xs : List (GridArray d ℝ)), (groupsOf d m xs).length ≤ m := by
        intro m
        induction m with
        | zero => intro xs; simp [groupsOf]
        | succ m ih => intro xs; unfold groupsOf; split_ifs <;> simp [ih]
      exact (hgl _ _).trans (by omega)

/-- **C62.** `aligned_field_from_split_divergence` turns `ndim²` (or more) channels into minus the divergence of a flux tensor: component `i` lies
at cell face `i`, is periodic, and is `-Σ_j (F_ij(k) - F_ij(k - e_j)) / h_j` with `F_ij` the channel `i * ndim + j`; hence its sum is zero. -/
theorem C62_flux_divergence (g : Grid d ℝ) (hg : ∀ a, 0 < g.shape a) (hd : d ≠ 0) (x : NArr (d + 1) ℝ) (hs : ∀ b : Fin d, x.shape b.castSucc = g.shape b)
    (hc : d * d ≤ x.shape (Fin.last d)) :
    ∃ out, alignedFieldFromSplitDivergence g x = .ok out ∧ out.length = d ∧
      ∀ (i : Fin d) (hi : i.1 < out.length), out[i.1].array.offset = g.cellFaces i ∧ out[i.1].array.grid = g ∧ out[i.1].array.shape = g.shape ∧
        out[i.1].bc = periodicBC d ∧
        (∀ k : Idx d, out[i.1].array.data k = -∑ j : Fin d, (x.data (Fin.snoc (α := fun _ => ℤ) k ((i.1 * d + j.1 : ℕ) : ℤ)) -
          x.data (Fin.snoc (α := fun _ => ℤ) (rollIdx g.shape j (-1) k) ((i.1 * d + j.1 : ℕ) : ℤ))) / g.step j) ∧
        ∑ k ∈ box g.shape, out[i.1].array.data k = 0 := by
  have hsh : ∀ c, (channel x c).shape = g.shape := fun c => by funext b; exact hs b
  have hF : ∀ (i j : Fin d), (⟨⟨channel x (i.1 * d + j), Function.update (g.cellFaces j) i (g.cellFaces j i + 1 / 2), g⟩, periodicBC d⟩ :
      GridVariable d ℝ).Periodic := fun i j => ⟨fun _ => rfl, fun a => ⟨by show (channel x _).shape a = _; rw [hsh], hg a⟩⟩
  have hdiv : ∀ i : Fin d, divergence ((List.ofFn fun j : Fin d =>
        (⟨channel x (i.1 * d + j), Function.update (g.cellFaces j) i (g.cellFaces j i + 1 / 2), g⟩ : GridArray d ℝ)).map
          fun u => (⟨u, periodicBC d⟩ : GridVariable d ℝ)) = .ok ⟨⟨g.shape, fun k => ∑ j : Fin d, ((channel x (i.1 * d + j)).data k -
            (channel x (i.1 * d + j)).data (rollIdx g.shape j (-1) k)) / g.step j⟩, g.cellFaces i, g⟩ := by
    intro i
    rw [List.map_ofFn]
    refine (divergence_periodic (v := fun j => ⟨⟨channel x (i.1 * d + j), Function.update (g.cellFaces j) i (g.cellFaces j i + 1 / 2), g⟩, periodicBC d⟩)
      (hF i)).2 ⟨hd, fun j => ⟨hsh _, ?_, rfl⟩, ?_⟩
    · dsimp only
      funext b
      unfold Grid.cellFaces
      by_cases hbj : b = j
      · subst hbj
        by_cases hbi : b = i
        · subst hbi; simp
        · simp [hbi]; norm_num
      · by_cases hbi : b = i
        · subst hbi; simp [hbj]; norm_num
        · simp [hbj, hbi]
    · dsimp only
      funext k
      refine Finset.sum_congr rfl fun j _ => ?_
      rw [hsh]
  refine ⟨(List.finRange d).map fun i => ⟨gmap (fun y => -y) ⟨⟨g.shape, fun k => ∑ j : Fin d, ((channel x (i.1 * d + j)).data k -
            (channel x (i.1 * d + j)).data (rollIdx g.shape j (-1) k)) / g.step j⟩, g.cellFaces i, g⟩, periodicBC d⟩, ?_, by simp, fun i hi => ?_⟩
  · unfold alignedFieldFromSplitDivergence
    rw [split_channels x (by have := Nat.mul_pos (Nat.pos_of_ne_zero hd) (Nat.pos_of_ne_zero hd); omega), Except.bind_ok]
    dsimp only
    rw [mapM_eq_ok, List.forall₂_map_right_iff, List.forall₂_same]
    intro i _
    have hle : (i.1 + 1) * d ≤ d * d := Nat.mul_le_mul_right d i.2
    have hr := flux_row g hd x i
    rw [if_pos (hle.trans hc)] at hr
    rw [hr]
    dsimp only
    rw [hdiv i]
    rfl
  · rw [List.getElem_map, List.getElem_finRange]
    refine ⟨rfl, rfl, rfl, rfl, fun k => rfl, ?_⟩
    show ∑ k ∈ box g.shape, -(∑ j : Fin d, ((channel x (i.1 * d + j)).data k - (channel x (i.1 * d + j)).data (rollIdx g.shape j (-1) k)) / g.step j) = 0
    rw [Finset.sum_neg_distrib, Finset.sum_comm, neg_eq_zero]
    refine Finset.sum_eq_zero fun j _ => ?_
    rw [← Finset.sum_div, Finset.sum_sub_distrib, sum_roll, sub_self, zero_div]

/-- **C62.** With fewer than `ndim²` channels it is rejected. -/
theorem C62_flux_channels (g : Grid d ℝ) (hd : d ≠ 0) (x : NArr (d + 1) ℝ) (hc : x.shape (Fin.last d) < d * d) (out : List (GridVariable d ℝ)) :
    alignedFieldFromSplitDivergence g x ≠ .ok out := by
  intro h
  unfold alignedFieldFromSplitDivergence at h
  obtain ⟨parts, hp, h⟩ := Except.bind_eq_ok.1 h
  have h0 : x.shape (Fin.last d) ≠ 0 := fun h0 => by
    rw [(C61_split x).1 h0] at hp
    cases hp
  have hp' := Except.ok.inj ((split_channels x h0).symm.trans hp)
  subst hp'
  dsimp only at h
  have hl := (mapM_eq_ok _ _ _).1 h
  have hi : d - 1 < d := by omega
  have hr := flux_row g hd x ⟨d - 1, hi⟩
  have e : (d - 1 + 1) * d = d * d := by rw [Nat.sub_add_cancel (Nat.pos_of_ne_zero hd)]
  rw [if_neg (by dsimp only; rw [e]; omega)] at hr
  obtain ⟨-, hg⟩ := forall2_getElem hl
  have hlen : d = out.length := by simpa using hl.length_eq
  have := hg (d - 1) (by simpa using hi) (by omega)
  simp only [List.getElem_finRange, Fin.cast_mk] at this
  rw [hr] at this
  cases this

/-! ## Correctors -/

/-- The pointwise sum `n + c * y` of two states of the same layout. -/
def IsSum (t : ℝ) (n y w : List (GridVariable d ℝ)) : Prop :=
  n.length = y.length ∧ w.length = n.length ∧ ∀ k (h1 : k < n.length) (h2 : k < y.length) (h3 : k < w.length),
    (n[k].array.offset = y[k].array.offset ∧ n[k].array.grid = y[k].array.grid ∧ n[k].array.shape = y[k].array.shape ∧ n[k].bc = y[k].bc) ∧
    (w[k].array.offset = n[k].array.offset ∧ w[k].array.grid = n[k].array.grid ∧ w[k].array.shape = n[k].array.shape ∧ w[k].bc = n[k].bc) ∧
    ∀ i : Idx d, w[k].array.data i = n[k].array.data i + t * y[k].array.data i

theorem addScaled_eq_ok {t : ℝ} {x y w : GridVariable d ℝ} : addScaled t x y = .ok w ↔
    (x.array.offset = y.array.offset ∧ x.array.grid = y.array.grid ∧ x.array.shape = y.array.shape ∧ x.bc = y.bc) ∧
    (w.array.offset = x.array.offset ∧ w.array.grid = x.array.grid ∧ w.array.shape = x.array.shape ∧ w.bc = x.bc) ∧
    ∀ i : Idx d, w.array.data i = x.array.data i + t * y.array.data i := by
  unfold addScaled
  constructor
  · intro h
    split_ifs at h with h1 h2
    have e := Except.ok.inj h
    subst e
    exact ⟨⟨h1.1, h1.2.1, h2, h1.2.2⟩, ⟨rfl, rfl, rfl, rfl⟩, fun i => rfl⟩
  · rintro ⟨⟨h1, h2, h3, h4⟩, ⟨e1, e2, e3, e4⟩, e5⟩
    rw [if_pos ⟨h1, h2, h4⟩, if_pos h3]
    rcases w with ⟨⟨⟨ws, wd⟩, wo, wg⟩, wb⟩
    dsimp only at e1 e2 e3 e4 e5
    subst e1; subst e2; subst e3; subst e4
    have : wd = fun i => x.array.data i + t * y.array.data i := funext e5
    rw [this]

theorem addCorrections_eq_ok {t : ℝ} {n y w : List (GridVariable d ℝ)} : addCorrections t n y = .ok w ↔ IsSum t n y w := by
  unfold addCorrections IsSum
  by_cases hl : n.length = y.length
  · rw [if_pos hl, mapM_eq_ok]
    constructor
    · intro h
      obtain ⟨h1, h2⟩ := forall2_getElem h
      have h1' : w.length = n.length := by rw [← h1]; simp [hl]
      refine ⟨hl, h1', fun k e1 e2 e3 => ?_⟩
      have := h2 k (by simp; omega) e3
      rw [List.getElem_zip] at this
      exact addScaled_eq_ok.1 this
    · rintro ⟨-, h1, h2⟩
      refine forall2_of_getElem (by simp; omega) fun k e1 e2 => ?_
      rw [List.getElem_zip]
      exact addScaled_eq_ok.2 (h2 k (by simp at e1; omega) (by simp at e1; omega) e2)
  · rw [if_neg hl]
    constructor
    · intro h
      cases h
    · rintro ⟨h, -⟩
      exact absurd h hl

/-- **C62.** What the learned correctors compute.  `learned_corrector` adds the correction of the *new* state (not scaled with the time step),
`learned_corrector_v2` adds `dt` times the correction of the *old* state, `learned_corrector_v3` adds `dt` times the correction of both states. Base
solver and correction must agree in number of components, offsets, grids, shapes and boundary conditions. -/
theorem C62_corrector (dt : ℝ) (base corr : StepFn d) (s w : List (GridVariable d ℝ)) :
    (learnedCorrector base corr s = .ok w ↔ ∃ n y, base s = .ok n ∧ corr n = .ok y ∧ IsSum 1 n y w) ∧
    (learnedCorrectorV2 dt base corr s = .ok w ↔ ∃ n y, base s = .ok n ∧ corr s = .ok y ∧ IsSum dt n y w) ∧
    (learnedCorrectorV3 dt base corr s = .ok w ↔ ∃ n y, base s = .ok n ∧ corr (s ++ n) = .ok y ∧ IsSum dt n y w) := by
  refine ⟨?_, ?_, ?_⟩
  · unfold learnedCorrector
    simp only [Except.bind_eq_ok, addCorrections_eq_ok]
    exact ⟨fun ⟨n, h1, y, h2, h3⟩ => ⟨n, y, h1, h2, h3⟩, fun ⟨n, y, h1, h2, h3⟩ => ⟨n, h1, y, h2, h3⟩⟩
  · unfold learnedCorrectorV2
    simp only [Except.bind_eq_ok, addCorrections_eq_ok]
    exact ⟨fun ⟨n, h1, y, h2, h3⟩ => ⟨n, y, h1, h2, h3⟩, fun ⟨n, y, h1, h2, h3⟩ => ⟨n, h1, y, h2, h3⟩⟩
  · unfold learnedCorrectorV3
    simp only [Except.bind_eq_ok, addCorrections_eq_ok]
    exact ⟨fun ⟨n, h1, y, h2, h3⟩ => ⟨n, y, h1, h2, h3⟩, fun ⟨n, y, h1, h2, h3⟩ => ⟨n, h1, y, h2, h3⟩⟩

/-- **C62.** The divergence of a corrected state is the divergence of the base solver's state plus that of the scaled correction: a corrected step is
divergence free exactly if the correction is; nothing is projected after the correction. -/
theorem C62_divergence (t : ℝ) (n y w : List (GridVariable d ℝ)) (h : IsSum t n y w) (hp : ∀ u ∈ n, u.Periodic) (D E : GridArray d ℝ)
    (hD : divergence n = .ok D) (hE : divergence y = .ok E) :
    ∃ R, divergence w = .ok R ∧ R.shape = D.shape ∧ R.offset = D.offset ∧ R.grid = D.grid ∧ ∀ i : Idx d, R.data i = D.data i + t * E.data i := by
  obtain ⟨hl, hw, hk⟩ := h
  have hn : n.length = d := by
    unfold divergence at hD
    obtain ⟨_, -, hD⟩ := Except.bind_eq_ok.1 hD
    by_contra hne
    rw [dif_neg hne] at hD
    cases hD
  have hfn : ∀ (l : List (GridVariable d ℝ)) (e : l.length = d), l = List.ofFn fun a : Fin d => l[a.1]'(by rw [e]; exact a.2) := fun l e => by
    refine List.ext_getElem (by simp [e]) fun k h1 h2 => by simp
  have en := hfn n hn
  have ey := hfn y (by omega)
  have ew := hfn w (by omega)
  have hpn : ∀ a : Fin d, (n[a.1]'(by omega)).Periodic := fun a => hp _ (List.getElem_mem _)
  have hpy : ∀ a : Fin d, (y[a.1]'(by omega)).Periodic := fun a => by
    obtain ⟨⟨-, h2, h3, h4⟩, -⟩ := hk a.1 (by omega) (by omega) (by omega)
    unfold GridVariable.Periodic
    rw [← h2, ← h3, ← h4]
    exact hpn a
  have hpw : ∀ a : Fin d, (w[a.1]'(by omega)).Periodic := fun a => by
    obtain ⟨-, ⟨-, h2, h3, h4⟩, -⟩ := hk a.1 (by omega) (by omega) (by omega)
    unfold GridVariable.Periodic
    rw [h2, h3, h4]
    exact hpn a
  rw [en] at hD
  rw [ey] at hE
  obtain ⟨hd, h1, h2⟩ := (divergence_periodic (v := fun a : Fin d => n[a.1]'(by omega)) hpn).1 hD
  obtain ⟨-, h3, h4⟩ := (divergence_periodic (v := fun a : Fin d => y[a.1]'(by omega)) hpy).1 hE
  refine ⟨⟨⟨D.shape, fun i => D.data i + t * E.data i⟩, D.offset, D.grid⟩, ?_, rfl, rfl, rfl, fun i => rfl⟩
  rw [ew]
  refine (divergence_periodic (v := fun a : Fin d => w[a.1]'(by omega)) hpw).2 ⟨hd, fun a => ?_, ?_⟩
  · obtain ⟨-, ⟨e1, e2, e3, -⟩, -⟩ := hk a.1 (by omega) (by omega) (by omega)
    rw [e1, e2, e3]
    exact h1 a
  · funext i
    rw [h2, h4]
    dsimp only
    rw [Finset.mul_sum, ← Finset.sum_add_distrib]
    refine Finset.sum_congr rfl fun a _ => ?_
    obtain ⟨⟨-, f2, f3, -⟩, ⟨-, e2, e3, -⟩, e5⟩ := hk a.1 (by omega) (by omega) (by omega)
    rw [e5, e5, e2, e3, ← f2, ← f3]
    ring

/-- **C62.** If the correction is zero, the corrected solver is the base solver. -/
theorem C62_zero_correction (t : ℝ) (n y w : List (GridVariable d ℝ)) (h : IsSum t n y w)
    (hy : ∀ u ∈ y, ∀ i : Idx d, u.array.data i = 0) : w = n := by
  obtain ⟨hl, hw, hk⟩ := h
  refine List.ext_getElem hw fun k h1 h2 => ?_
  obtain ⟨-, ⟨e1, e2, e3, e4⟩, e5⟩ := hk k h2 (by omega) h1
  have e6 : w[k].array.data = n[k].array.data := funext fun i => by rw [e5, hy _ (List.getElem_mem _), mul_zero, add_zero]
  rcases hwk : w[k] with ⟨⟨⟨ws, wd⟩, wo, wg⟩, wb⟩
  rcases hnk : n[k] with ⟨⟨⟨ns, nd⟩, no, ng⟩, nb⟩
  rw [hwk, hnk] at e1 e2 e3 e4 e6
  dsimp only at e1 e2 e3 e4 e6
  subst e1; subst e2; subst e3; subst e4; subst e6
  rfl

/-- An array with channels on the cells of a grid. -/
def OnCells (g : Grid d ℝ) (y : NArr (d + 1) ℝ) : Prop := ∀ b : Fin d, y.shape b.castSucc = g.shape b

/-- A state on the cells of a grid. -/
def StateOn (g : Grid d ℝ) (s : List (GridVariable d ℝ)) : Prop := ∀ u ∈ s, u.array.shape = g.shape

/-- The network keeps the grid (it may change the number of channels). -/
def KeepsCells (g : Grid d ℝ) (tower : Tower d) : Prop := ∀ m y z, OnCells g y → tower m y = .ok z → OnCells g z

/-- The preprocessing keeps the grid. -/
def PreservesCells (g : Grid d ℝ) (pre : List (GridVariable d ℝ) → Except Err (NArr (d + 1) ℝ)) : Prop :=
  ∀ s y, StateOn g s → pre s = .ok y → OnCells g y

theorem stack_preserves (g : Grid d ℝ) : PreservesCells g stackAlignedField := by
  intro s y hs h b
  obtain ⟨h1, h2⟩ := stackLast_ok h
  have hne : 0 < s.length := by
    rcases s with - | ⟨u, s⟩
    · cases h
    · simp
  have := (h2 0 (by simpa using hne)).1
  rw [List.getElem_map] at this
  have e : (s[0].array.toNArr).shape = g.shape := hs _ (List.getElem_mem _)
  rw [e] at this
  exact (congrFun this b).symm

theorem StateOn.append {g : Grid d ℝ} {s t : List (GridVariable d ℝ)} (h1 : StateOn g s) (h2 : StateOn g t) : StateOn g (s ++ t) := fun u hu =>
  (List.mem_append.1 hu).elim (h1 u) (h2 u)

theorem flux_total {g : Grid d ℝ} (hg : ∀ a, 0 < g.shape a) (hd : d ≠ 0) {tower : Tower d} (ht : KeepsCells g tower)
    {pre : List (GridVariable d ℝ) → Except Err (NArr (d + 1) ℝ)} (hpre : PreservesCells g pre) {s : List (GridVariable d ℝ)} (hs : StateOn g s) {y : List (GridVariable d ℝ)} (h : fluxCorrector g tower pre s = .ok y) :
    y.length = d ∧ ∀ k (hk : k < y.length), y[k].array.shape = g.shape ∧ ∑ i ∈ box g.shape, y[k].array.data i = 0 := by
  unfold fluxCorrector towerModule at h
  obtain ⟨x, hx, h⟩ := Except.bind_eq_ok.1 h
  obtain ⟨z, hz, h⟩ := Except.bind_eq_ok.1 h
  have hc : d * d ≤ z.shape (Fin.last d) := by
    by_contra hlt
    exact C62_flux_channels g hd z (by omega) y h
  obtain ⟨out, ho, hl, hk⟩ := C62_flux_divergence g hg hd z (ht _ _ _ (hpre _ _ hs hx) hz) hc
  have e := Except.ok.inj (ho.symm.trans h)
  subst e
  exact ⟨hl, fun k h1 => ⟨(hk ⟨k, by omega⟩ h1).2.2.1, (hk ⟨k, by omega⟩ h1).2.2.2.2.2⟩⟩

/-- **C62.** Flux corrections conserve momentum: for every network and preprocessing that keep the grid, every base solver and each of the three
correctors, a step with `flux_corrector_network` changes the sum of no velocity component compared to the base solver's step. -/
theorem C62_flux_corrector_conserves (g : Grid d ℝ) (hg : ∀ a, 0 < g.shape a) (hd : d ≠ 0) (dt : ℝ) (tower : Tower d) (ht : KeepsCells g tower)
    (pre : List (GridVariable d ℝ) → Except Err (NArr (d + 1) ℝ)) (hpre : PreservesCells g pre) (base : StepFn d) (s n w : List (GridVariable d ℝ))
    (hn : base s = .ok n) (hs1 : StateOn g s) (hs2 : StateOn g n)
    (h : learnedCorrector base (fluxCorrector g tower pre) s = .ok w ∨ learnedCorrectorV2 dt base (fluxCorrector g tower pre) s = .ok w ∨
      learnedCorrectorV3 dt base (fluxCorrector g tower pre) s = .ok w) :
    n.length = d ∧ w.length = d ∧ ∀ k (h1 : k < n.length) (h2 : k < w.length), w[k].array.offset = n[k].array.offset ∧ w[k].bc = n[k].bc ∧
      w[k].array.shape = g.shape ∧ ∑ i ∈ box g.shape, w[k].array.data i = ∑ i ∈ box g.shape, n[k].array.data i := by
  obtain ⟨c1, c2, c3⟩ := C62_corrector dt base (fluxCorrector g tower pre) s w
  obtain ⟨t, n', y, x, e1, e2, e3, hx⟩ : ∃ t n' y x, base s = .ok n' ∧ fluxCorrector g tower pre x = .ok y ∧ IsSum t n' y w ∧ StateOn g x := by
    rcases h with h | h | h
    · obtain ⟨n', y, e1, e2, e3⟩ := c1.1 h; exact ⟨1, n', y, n', e1, e2, e3, by rwa [← Except.ok.inj (hn.symm.trans e1)]⟩
    · obtain ⟨n', y, e1, e2, e3⟩ := c2.1 h; exact ⟨dt, n', y, s, e1, e2, e3, hs1⟩
    · obtain ⟨n', y, e1, e2, e3⟩ := c3.1 h; exact ⟨dt, n', y, s ++ n', e1, e2, e3, hs1.append (by rwa [← Except.ok.inj (hn.symm.trans e1)])⟩
  have e := Except.ok.inj (hn.symm.trans e1)
  subst e
  obtain ⟨hl, hy⟩ := flux_total hg hd ht hpre hx e2
  obtain ⟨l1, l2, hk⟩ := e3
  refine ⟨by omega, by omega, fun k h1 h2 => ?_⟩
  obtain ⟨⟨-, -, f3, -⟩, ⟨g1, -, g3, g4⟩, g5⟩ := hk k h1 (by omega) h2
  obtain ⟨y1, y2⟩ := hy k (by omega)
  refine ⟨g1, g4, by rw [g3, f3, y1], ?_⟩
  simp only [g5]
  rw [Finset.sum_add_distrib, ← Finset.mul_sum, y2, mul_zero, add_zero]

theorem linear_self (c : GridVariable d ℝ) : linear c c.array.offset = .ok c := by
  unfold linear
  have : ∀ l : List (Fin d), l.foldlM (fun u a => linearAlongAxis u (c.array.offset a) a) c = .ok c := by
    intro l
    induction l with
    | nil => rfl
    | cons a l ih =>
      rw [List.foldlM_cons]
      have : linearAlongAxis c (c.array.offset a) a = .ok c := by
        unfold linearAlongAxis
        dsimp only
        rw [if_pos (sub_self _)]
      rw [this]
      exact ih
  exact this _

/-- **C62.** `velocity_corrector_network` (default offsets): the network sees the velocity components as its channels and its output channels become
the components of the correction, at the cell faces, with periodic conditions. -/
theorem C62_velocity_corrector (g : Grid d ℝ) (tower : Tower d) (s y : List (GridVariable d ℝ)) (h : velocityCorrector g none none tower s = .ok y) :
    ∃ x z, Channels (s.map fun u => u.array.toNArr) x ∧ tower d x = .ok z ∧ y.length = min (z.shape (Fin.last d)) d ∧
      ∀ (k : Fin d) (hk : k.1 < y.length), y[k.1] = ⟨⟨channel z k, g.cellFaces k, g⟩, periodicBC d⟩ := by
  unfold velocityCorrector towerModule at h
  obtain ⟨x, hx, h⟩ := Except.bind_eq_ok.1 h
  obtain ⟨z, hz, h⟩ := Except.bind_eq_ok.1 h
  unfold splitToAlignedField at h
  dsimp only [Option.getD_none] at h
  obtain ⟨parts, hp, h⟩ := Except.bind_eq_ok.1 h
  have h0 : z.shape (Fin.last d) ≠ 0 := fun h0 => by
    rw [(C61_split z).1 h0] at hp
    cases hp
  have hp' := Except.ok.inj ((split_channels z h0).symm.trans hp)
  subst hp'
  obtain ⟨l1, l2⟩ := forall2_getElem ((mapM_eq_ok _ _ _).1 h)
  have hlen : y.length = min (z.shape (Fin.last d)) d := by rw [← l1]; simp
  refine ⟨x, z, stackLast_ok hx, hz, hlen, fun k hk => ?_⟩
  have := l2 k.1 (by rw [l1]; exact hk) hk
  simp only [List.getElem_zip, List.getElem_map, List.getElem_ofFn, List.getElem_replicate, Fin.eta] at this
  have e := linear_self (⟨⟨channel z k, g.cellFaces k, g⟩, periodicBC d⟩ : GridVariable d ℝ)
  exact (Except.ok.inj (e.symm.trans this)).symm

/-- **C62 (defect).** `velocity_corrector_network_w_boundaries` fails on every input unless a `process_fn` is passed: its default is a function of
three arguments, which is called with one. -/
theorem C62_process_default_defect (g : Grid d ℝ) (specOffsets : Option (List (Fin d → ℚ))) (networkOffsets : List (Fin d → ℚ))
    (net : List (GridVariable d ℝ) → Except Err (List (GridVariable d ℝ))) (x : List (GridVariable d ℝ)) :
    velocityCorrectorWithBoundaries g specOffsets networkOffsets net none x = .error .type := rfl

theorem shifts_eq (n : ℕ) : (((List.range (2 * n + 1)).map fun j : ℕ => (j : ℤ) - n).filter fun s => decide (s ≠ 0)) =
    ((List.range n).map fun q : ℕ => (q : ℤ) - n) ++ (List.range n).map fun q : ℕ => (q : ℤ) + 1 := by
  have e : 2 * n + 1 = n + (1 + n) := by omega
  rw [e, List.range_add, List.range_add, List.map_append, List.map_append, List.filter_append]
  congr 1
  · rw [List.filter_eq_self]
    intro s hs
    obtain ⟨q, hq, rfl⟩ := List.mem_map.1 hs
    have := List.mem_range.1 hq
    simp only [ne_eq, decide_eq_true_eq]
    omega
  · rw [List.map_append, List.filter_append]
    have h1 : List.filter (fun s : ℤ => decide (s ≠ 0)) (List.map (fun j : ℕ => (j : ℤ) - n) (List.map (fun x => n + x) (List.range 1))) = [] := by
      simp
    rw [h1, List.nil_append, List.filter_eq_self.2]
    · simp only [List.map_map]
      refine List.map_congr_left fun q _ => ?_
      simp only [Function.comp]
      push_cast
      ring
    · intro s hs
      simp only [List.map_map, List.mem_map, List.mem_range, Function.comp] at hs
      obtain ⟨q, hq, rfl⟩ := hs
      simp only [ne_eq, decide_eq_true_eq]
      push_cast
      omega

theorem shifts_length (d n : ℕ) : (shiftsAndAxes d n).length = 2 * n * d := by
  unfold shiftsAndAxes
  rw [flatMap_length _ d (by simp), shifts_eq]
  simp only [List.length_append, List.length_map, List.length_range]
  ring

theorem shifts_get (d n q : ℕ) (hq : q < 2 * n) (a : Fin d) :
    (shiftsAndAxes d n)[q * d + a.1]? = some ((if q < n then (q : ℤ) - n else (q : ℤ) - n + 1), a) := by
  unfold shiftsAndAxes
  rw [flatMap_getElem? _ d (by simp) _ _ _ a.2, shifts_eq]
  have : (((List.range n).map fun q : ℕ => (q : ℤ) - n) ++ (List.range n).map fun q : ℕ => (q : ℤ) + 1)[q]? = some (if q < n then (q : ℤ) - n else (q : ℤ) - n + 1) := by
    split_ifs with h
    · rw [List.getElem?_append_left (by simpa using h)]
      simp [h]
    · rw [List.getElem?_append_right (by simpa using h)]
      simp only [List.length_map, List.length_range, List.getElem?_map]
      rw [List.getElem?_range (by omega)]
      simp only [Option.map_some]
      congr 1
      push_cast [Nat.cast_sub (not_lt.1 h)]
      ring
  rw [this]
  simp

/-- **C62.** `stack_aligned_field_with_neighbors`: the channels are, group after group, the components shifted by `-n, …, -1, 1, …, n` along every axis
(all axes for one shift before the next shift), and the components themselves as the last group. -/
theorem C62_neighbors (n : ℕ) (s : List (GridVariable d ℝ)) (r : NArr (d + 1) ℝ) (h : stackWithNeighbors n s = .ok r) :
    (shiftsAndAxes d n).length = 2 * n * d ∧ r.shape (Fin.last d) = (2 * n * d + 1) * s.length ∧
    ∀ c (hc : c < s.length), (∀ b : Fin d, r.shape b.castSucc = s[c].array.shape b) ∧
      (∀ i : Idx d, InR s[c].array.shape i → r.data (Fin.snoc (α := fun _ => ℤ) i ((2 * n * d * s.length + c : ℕ) : ℤ)) = s[c].array.data i) ∧
      ∀ (q : ℕ) (hq : q < 2 * n) (a : Fin d) (i : Idx d),
        r.data (Fin.snoc (α := fun _ => ℤ) i (((q * d + a) * s.length + c : ℕ) : ℤ)) =
          s[c].array.data (rollIdx s[c].array.shape a (-(if q < n then (q : ℤ) - n else (q : ℤ) - n + 1)) i) := by
  unfold stackWithNeighbors at h
  obtain ⟨x, hx, h⟩ := Except.bind_eq_ok.1 h
  obtain ⟨hc, hx⟩ := stackLast_ok hx
  simp only [List.length_map, List.getElem_map] at hc hx
  set L := (shiftsAndAxes d n).map (fun p => rollAx x p.1 p.2) ++ [x] with hL
  have hlen : L.length = 2 * n * d + 1 := by rw [hL]; simp [shifts_length]
  have hsh : ∀ y ∈ L, y.shape = x.shape := fun y hy => by
    rcases List.mem_append.1 hy with h | h
    · obtain ⟨p, -, rfl⟩ := List.mem_map.1 h
      rfl
    · rw [List.mem_singleton.1 h]
  have hq : ∀ (q : ℕ) (_ : q < 2 * n) (a : Fin d), L[q * d + a.1]? = some (rollAx x (if q < n then (q : ℤ) - n else (q : ℤ) - n + 1) a) := fun q h a => by
    have e := shifts_get d n q h a
    have hlt : q * d + a.1 < (shiftsAndAxes d n).length := by
      by_contra hge
      rw [List.getElem?_eq_none (by omega)] at e
      cases e
    rw [hL, List.getElem?_append_left (by simpa using hlt), List.getElem?_map, e]
    rfl
  have hlast : L[2 * n * d]? = some x := by
    rw [hL, List.getElem?_append_right (by simp [shifts_length])]
    simp [shifts_length]
  clear_value L
  match L, h with
  | y :: ys, h =>
    change concatN (Fin.last d) y ys = .ok r at h
    unfold concatN at h
    split_ifs at h with hs
    have e := Except.ok.inj h
    have hm : ∀ z ∈ y :: ys, z.shape (Fin.last d) = s.length := fun z hz => by rw [hsh z hz, hc]
    have hd : ∀ (k : ℕ) (z : NArr (d + 1) ℝ), (y :: ys)[k]? = some z → ∀ (c : ℕ), c < s.length → ∀ i : Idx d,
        r.data (Fin.snoc (α := fun _ => ℤ) i ((k * s.length + c : ℕ) : ℤ)) = z.data (Fin.snoc (α := fun _ => ℤ) i (c : ℤ)) := fun k z hz c hc i => by
      obtain ⟨hk, hz⟩ := List.getElem?_eq_some_iff.1 hz
      have := concatData_equal s.length y ys hm k hk i (c : ℤ) (by omega) (by exact_mod_cast hc)
      rw [← e]
      dsimp only
      push_cast
      rw [this, hz]
    refine ⟨shifts_length d n, ?_, fun c hcs => ⟨fun b => ?_, fun i _ => ?_, fun q h a i => ?_⟩⟩
    · rw [← e]
      dsimp only
      rw [Function.update_self]
      have : ((y :: ys).map fun z : NArr (d + 1) ℝ => z.shape (Fin.last d)) = List.replicate (2 * n * d + 1) s.length := by
        rw [List.eq_replicate_iff]
        refine ⟨by rw [List.length_map, hlen], fun b hb => ?_⟩
        obtain ⟨z, hz, rfl⟩ := List.mem_map.1 hb
        exact hm z hz
      rw [this, List.sum_replicate, smul_eq_mul]
    · rw [← e]
      dsimp only
      rw [Function.update_of_ne (Fin.castSucc_lt_last b).ne, hsh y (by simp)]
      exact (congrFun (hx c hcs).1 b).symm
    · rw [hd _ _ hlast c hcs i]
      exact ((hx c hcs).2 i).symm
    · rw [hd _ _ (hq q h a) c hcs i]
      have h1 := (hx c hcs).1
      have h2 := (hx c hcs).2
      have h3 : s[c].array.shape a = x.shape a.castSucc := congrFun h1 a
      have h4 : s[c].array.data = fun i => x.data (Fin.snoc (α := fun _ => ℤ) i (c : ℤ)) := funext h2
      rw [h4]
      unfold rollAx rollIdx
      dsimp only
      rw [h3, Fin.snoc_castSucc, Fin.snoc_update, sub_eq_add_neg]

/-! ## The hypotheses are met -/

/-- A periodic velocity on the faces. -/
noncomputable def faceState (g : Grid d ℝ) (f : Fin d → Idx d → ℝ) : List (GridVariable d ℝ) :=
  List.ofFn fun a => ⟨⟨⟨g.shape, f a⟩, g.cellFaces a, g⟩, periodicBC d⟩

/-- A network that multiplies the first channel with the number of the output channel. -/
noncomputable def rampTower (d : ℕ) : Tower d := fun m y =>
  .ok ⟨Fin.snoc (α := fun _ => ℕ) (fun b : Fin d => y.shape b.castSucc) m,
    fun i => (i (Fin.last d) : ℝ) * y.data (Fin.snoc (α := fun _ => ℤ) (fun b : Fin d => i b.castSucc) 0)⟩

theorem faceState_stack (g : Grid d ℝ) (hd : d ≠ 0) (f : Fin d → Idx d → ℝ) : ∃ x, stackAlignedField (faceState g f) = .ok x ∧
    (∀ b : Fin d, x.shape b.castSucc = g.shape b) := by
  obtain ⟨m, rfl⟩ := Nat.exists_eq_succ_of_ne_zero hd
  unfold stackAlignedField stackLast faceState
  simp only [List.ofFn_succ, List.map_cons]
  rw [if_pos (by
    intro y hy
    obtain ⟨z, hz, rfl⟩ := List.mem_map.1 hy
    obtain ⟨a, rfl⟩ := List.mem_ofFn.1 hz
    rfl)]
  exact ⟨_, rfl, fun b => by simp⟩

/-- On every grid a flux corrector with the network above runs on every periodic velocity field, with each of the three correctors. -/
theorem flux_corrector_runs (g : Grid d ℝ) (hg : ∀ a, 0 < g.shape a) (hd : d ≠ 0) (f : Fin d → Idx d → ℝ) (t : ℝ) :
    ∃ y w, fluxCorrector g (rampTower d) stackAlignedField (faceState g f) = .ok y ∧ IsSum t (faceState g f) y w := by
  obtain ⟨x, hx, hs⟩ := faceState_stack g hd f
  unfold fluxCorrector towerModule
  rw [hx]
  simp only [Except.bind_ok, Option.getD_some]
  obtain ⟨out, ho, hl, hk⟩ := C62_flux_divergence g hg hd (⟨Fin.snoc (α := fun _ => ℕ) (fun b : Fin d => x.shape b.castSucc) (d ^ 2),
    fun i => (i (Fin.last d) : ℝ) * x.data (Fin.snoc (α := fun _ => ℤ) (fun b : Fin d => i b.castSucc) 0)⟩ : NArr (d + 1) ℝ)
    (fun b => by simp [hs b]) (by simp [sq])
  refine ⟨out, List.ofFn fun a : Fin d => ⟨⟨⟨g.shape, fun i => f a i + t * (out[a.1]'(by rw [hl]; exact a.2)).array.data i⟩, g.cellFaces a, g⟩, periodicBC d⟩, ?_,
    by simp [faceState, hl], by simp [faceState], fun k h1 h2 h3 => ?_⟩
  · exact ho
  · have hkd : k < d := by omega
    obtain ⟨e1, e2, e3, e4, -⟩ := hk ⟨k, hkd⟩ h2
    dsimp only at e1 e2 e3 e4
    simp only [faceState, List.getElem_ofFn]
    exact ⟨⟨e1.symm, e2.symm, e3.symm, e4.symm⟩, by simp⟩

theorem rampTower_keeps (g : Grid d ℝ) : KeepsCells g (rampTower d) := by
  intro m y z hy h b
  have e := Except.ok.inj h
  rw [← e]
  simp [hy b]

example (f : Fin 2 → Idx 2 → ℝ) : ∃ w, learnedCorrector pure (fluxCorrector unitGrid4 (rampTower 2) stackAlignedField) (faceState unitGrid4 f) = .ok w := by
  obtain ⟨y, w, h1, h2⟩ := flux_corrector_runs unitGrid4 (fun a => by norm_num [unitGrid4]) two_ne_zero f 1
  exact ⟨w, (C62_corrector 1 pure _ _ w).1.2 ⟨_, y, rfl, h1, h2⟩⟩

example (f : Fin 2 → Idx 2 → ℝ) (dt : ℝ) : ∃ w, learnedCorrectorV2 dt pure (fluxCorrector unitGrid4 (rampTower 2) stackAlignedField) (faceState unitGrid4 f) = .ok w := by
  obtain ⟨y, w, h1, h2⟩ := flux_corrector_runs unitGrid4 (fun a => by norm_num [unitGrid4]) two_ne_zero f dt
  exact ⟨w, (C62_corrector dt pure _ _ w).2.1.2 ⟨_, y, rfl, h1, h2⟩⟩

example (g : Grid d ℝ) (hd : d ≠ 0) (f : Fin d → Idx d → ℝ) : ∃ r, stackWithNeighbors 1 (faceState g f) = .ok r := by
  obtain ⟨x, hx, -⟩ := faceState_stack g hd f
  unfold stackWithNeighbors
  rw [hx]
  simp only [Except.bind_ok]
  have hsh : ∀ y ∈ (shiftsAndAxes d 1).map (fun p => rollAx x p.1 p.2) ++ [x], y.shape = x.shape := fun y hy => by
    rcases List.mem_append.1 hy with h | h
    · obtain ⟨p, -, rfl⟩ := List.mem_map.1 h
      rfl
    · rw [List.mem_singleton.1 h]
  revert hsh
  generalize hL : (shiftsAndAxes d 1).map (fun p => rollAx x p.1 p.2) ++ [x] = L
  intro hsh
  match L, hL with
  | [], hL => simp at hL
  | y :: ys, _ =>
    show ∃ r, concatN (Fin.last d) y ys = .ok r
    unfold concatN
    rw [if_pos fun z hz b _ => by rw [hsh z (by simp [hz]), hsh y (by simp)]]
    exact ⟨_, rfl⟩

end

end JaxCfd.ML
