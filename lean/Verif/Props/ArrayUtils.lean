import Mathlib.Algebra.BigOperators.Field
import Verif.Lemmas.ArrayUtils
import Verif.Props.Fixtures

/-! # C41, C42: axis utilities and block reductions -/

namespace JaxCfd
variable {d : ℕ} {K : Type}

/-- **C41** Axis normalization: axes `-ndim, .., ndim - 1` are accepted and taken modulo `ndim`, all others are a ValueError. -/
theorem C41_normalize_axis (axis : ℤ) (n : ℕ) :
    (-(n : ℤ) ≤ axis → axis < n → ∃ a : Fin n, normalizeAxis axis n = .ok a ∧ (a : ℤ) = axis % n) ∧
    (¬ (-(n : ℤ) ≤ axis ∧ axis < n) → normalizeAxis axis n = .error .value) := by
  constructor
  · intro h1 h2
    have hn : (0 : ℤ) < n := by omega
    refine ⟨⟨(axis % n).toNat, ?_⟩, ?_, ?_⟩
    · have := Int.emod_lt_of_pos axis hn
      have := Int.emod_nonneg axis hn.ne'
      omega
    · rw [normalizeAxis_eq_ok]
      have := Int.emod_nonneg axis hn.ne'
      dsimp only
      by_cases h : axis < 0
      · right
        have e : axis % n = axis + n := by
          rw [← Int.add_emod_right, Int.emod_eq_of_lt (by omega) (by omega)]
        omega
      · left
        rw [Int.emod_eq_of_lt (by omega) h2]
        omega
    · have := Int.emod_nonneg axis hn.ne'
      dsimp only
      omega
  · intro h
    unfold normalizeAxis
    rw [dif_neg h]

/-- **C41** `split_along_axis` succeeds exactly if the axis is valid for every leaf and, if so required, all leaves have the same
rank (of which there must then be one). -/
theorem C41_split_defined (inputs : List (AnyArr K)) (k axis : ℤ) (same : Bool) :
    (∃ r, splitAlongAxis inputs k axis same = .ok r) ↔
      (same = true → ∃ n, inputs ≠ [] ∧ ∀ x ∈ inputs, x.1 = n) ∧ ∀ x ∈ inputs, -(x.1 : ℤ) ≤ axis ∧ axis < x.1 := by
  have hd : (inputs.map Sigma.fst).dedup.length = 1 ↔ ∃ n, inputs ≠ [] ∧ ∀ x ∈ inputs, x.1 = n := by
    constructor
    · intro h
      obtain ⟨n, hn⟩ := List.length_eq_one_iff.1 h
      refine ⟨n, ?_, ?_⟩
      · rintro rfl; simp at hn
      · intro x hx
        have : x.1 ∈ (inputs.map Sigma.fst).dedup := List.mem_dedup.2 (List.mem_map.2 ⟨x, hx, rfl⟩)
        rw [hn] at this
        simpa using this
    · rintro ⟨n, hne, hall⟩
      have h1 : inputs.map Sigma.fst = List.replicate inputs.length n := by
        rw [List.eq_replicate_iff]
        refine ⟨by simp, ?_⟩
        intro b hb
        obtain ⟨x, hx, rfl⟩ := List.mem_map.1 hb
        exact hall x hx
      rw [h1, List.replicate_dedup (by simpa using hne)]
      rfl
  have hax : ∀ x : AnyArr K, (∃ ax, normalizeAxis axis x.1 = .ok ax) ↔ -(x.1 : ℤ) ≤ axis ∧ axis < x.1 := by
    intro x
    constructor
    · rintro ⟨a, ha⟩
      have := normalizeAxis_eq_ok.1 ha
      have := a.2
      omega
    · rintro ⟨h1, h2⟩
      obtain ⟨a, ha, _⟩ := (C41_normalize_axis axis x.1).1 h1 h2
      exact ⟨a, ha⟩
  unfold splitAlongAxis
  simp only [Except.bind_eq_ok, sliceAlongAxis_eq_ok]
  constructor
  · rintro ⟨r, a, ⟨h1, h2⟩, _⟩
    refine ⟨fun h => hd.1 (h1 h), ?_⟩
    intro x hx
    obtain ⟨i, hi, rfl⟩ := List.getElem_of_mem hx
    obtain ⟨hl, hf⟩ := forall2_getElem h2
    obtain ⟨ax, hax', _⟩ := hf i hi (by omega)
    exact (hax _).1 ⟨ax, hax'⟩
  · rintro ⟨h1, h2⟩
    have mk : ∀ s : PySlice, ∃ r, List.Forall₂ (fun x y : AnyArr K => ∃ ax, normalizeAxis axis x.1 = .ok ax ∧ y = ⟨x.1, sliceAx x.2 ax s⟩) inputs r := by
      intro s
      clear h1 hd
      induction inputs with
      | nil => exact ⟨[], List.Forall₂.nil⟩
      | cons x l ih =>
        obtain ⟨r, hr⟩ := ih (fun y hy => h2 y (by simp [hy]))
        obtain ⟨ax, hx⟩ := (hax x).2 (h2 x (by simp))
        exact ⟨_ :: r, List.Forall₂.cons ⟨ax, hx, rfl⟩ hr⟩
    obtain ⟨a, ha⟩ := mk ⟨some 0, some k, 1⟩
    obtain ⟨b, hb⟩ := mk ⟨some k, none, 1⟩
    exact ⟨(a, b), a, ⟨fun h => hd.2 (h1 h), ha⟩, b, ⟨fun h => hd.2 (h1 h), hb⟩, rfl⟩

/-- **C41** Concatenating the two parts of `split_along_axis` gives back every leaf of the pytree: for all ranks, axes (negative
ones included) and split positions (negative, zero or beyond the end included). -/
theorem C41_split_concat (inputs : List (AnyArr K)) (k axis : ℤ) (same : Bool) (a b : List (AnyArr K))
    (h : splitAlongAxis inputs k axis same = .ok (a, b)) :
    ∃ r, concatAlongAxis [a, b] axis = .ok r ∧ List.Forall₂ AnyArr.Eqv r inputs := by
  unfold splitAlongAxis at h
  simp only [Except.bind_eq_ok, sliceAlongAxis_eq_ok] at h
  obtain ⟨a', ⟨_, ha⟩, b', ⟨_, hb⟩, h⟩ := h
  have := Prod.mk.inj (Except.ok.inj h)
  obtain ⟨rfl, rfl⟩ := this
  obtain ⟨la, fa⟩ := forall2_getElem ha
  obtain ⟨lb, fb⟩ := forall2_getElem hb
  have key : ∀ j (hj : j < inputs.length), ∃ y, concatLeaves axis [a'[j]'(by omega), b'[j]'(by omega)] = .ok y ∧ y.Eqv inputs[j] := by
    intro j hj
    obtain ⟨ax, hax, ea⟩ := fa j hj (by omega)
    obtain ⟨ax', hax', eb⟩ := fb j hj (by omega)
    rw [hax] at hax'
    have := Except.ok.inj hax'
    subst this
    rw [ea, eb]
    refine ⟨_, concatLeaves_ok hax _ [_] ?_, ?_⟩
    · intro y hy c hc
      rw [List.mem_singleton] at hy
      subst hy
      simp [sliceAx, Function.update_of_ne hc]
    · exact AnyArr.eqv_mk (concat_slices _ ax k)
  choose y hy1 hy2 using key
  refine ⟨List.ofFn fun j : Fin inputs.length => y j j.2, ?_, ?_⟩
  · apply concatAlongAxis_ok
    · intro u hu
      rw [List.mem_singleton] at hu
      subst hu
      omega
    · simp; omega
    · intro j hj hj'
      have : ([a', b'].filterMap fun u => u[j]?) = [a'[j]'(by omega), b'[j]'(by omega)] := by
        simp [List.filterMap_cons, List.getElem?_eq_getElem (show j < a'.length by omega),
          List.getElem?_eq_getElem (show j < b'.length by omega)]
      rw [this, hy1 j (by omega)]
      simp
  · apply forall2_of_getElem (by simp)
    intro j h1 h2
    simp only [List.getElem_ofFn]
    exact hy2 j h2

/-- **C41** Conversely, splitting a concatenation of two pytrees where the first one ends recovers both. -/
theorem C41_concat_split (x y : NArr d K) (axis : ℤ) (r : List (AnyArr K))
    (h : concatAlongAxis [[⟨d, x⟩], [⟨d, y⟩]] axis = .ok r) (n : ℕ) (hn : shapeAt ⟨d, x⟩ axis = .ok n) :
    ∃ a b, splitAlongAxis r n axis = .ok ([a], [b]) ∧ AnyArr.Eqv a ⟨d, x⟩ ∧ AnyArr.Eqv b ⟨d, y⟩ := by
  unfold shapeAt at hn
  cases hax : normalizeAxis axis d with
  | error e => rw [hax] at hn; cases hn
  | ok ax =>
    rw [hax] at hn
    have hn := Except.ok.inj hn
    dsimp only at hn
    have hsh : ∀ b, b ≠ ax → y.shape b = x.shape b := by
      by_contra hc
      have : concatAlongAxis [[(⟨d, x⟩ : AnyArr K)], [⟨d, y⟩]] axis = .error .type := by
        unfold concatAlongAxis concatLeaves
        dsimp only
        rw [if_pos (by simp)]
        simp only [List.length_cons, List.length_nil, List.range_one, List.mapM_cons, List.mapM_nil]
        simp [hax, castQ_self, concatN, hc, bind, Except.bind, pure, Except.pure]
      rw [this] at h
      cases h
    have hr : r = [⟨d, ⟨Function.update x.shape ax (([x, y].map fun y => y.shape ax).sum), concatData ax x [y]⟩⟩] := by
      have := concatAlongAxis_ok (axis := axis) [(⟨d, x⟩ : AnyArr K)] [[⟨d, y⟩]] (by simp)
        [⟨d, ⟨Function.update x.shape ax (([x, y].map fun y => y.shape ax).sum), concatData ax x [y]⟩⟩] rfl (by
          intro k hk hk'
          have : k = 0 := by simpa using hk
          subst this
          exact concatLeaves_ok hax x [y] (by simpa using hsh))
      rw [this] at h
      exact (Except.ok.inj h).symm
    subst hr
    have c1 : clipBound (n + y.shape ax) 0 = 0 := by simp [clipBound]
    have c2 : clipBound (n + y.shape ax) n = n := by unfold clipBound; rw [if_neg (by omega)]; omega
    refine ⟨⟨d, sliceAx ⟨Function.update x.shape ax (([x, y].map fun y => y.shape ax).sum), concatData ax x [y]⟩ ax
      ⟨some 0, some n, 1⟩⟩, ⟨d, sliceAx ⟨Function.update x.shape ax (([x, y].map fun y => y.shape ax).sum), concatData ax x [y]⟩ ax
      ⟨some n, none, 1⟩⟩, ?_, ?_, ?_⟩
    rotate_left
    · apply AnyArr.eqv_mk
      constructor
      · funext b
        by_cases hb : b = ax
        · subst hb
          simp [sliceAx, PySlice.len, PySlice.lo, PySlice.hi, hn, c1, c2]
        · simp [sliceAx, Function.update_of_ne hb]
      · intro i hi
        have h0 := hi ax
        simp [sliceAx, PySlice.len, PySlice.lo, PySlice.hi, hn, c1, c2] at h0
        simp [sliceAx, concatData, PySlice.lo, hn, c1, h0.2]
    · apply AnyArr.eqv_mk
      constructor
      · funext b
        by_cases hb : b = ax
        · subst hb
          simp [sliceAx, PySlice.len, PySlice.lo, PySlice.hi, hn, c2]
        · simp [sliceAx, Function.update_of_ne hb, hsh b hb]
      · intro i hi
        have h0 := hi ax
        simp [sliceAx, PySlice.len, PySlice.lo, PySlice.hi, hn, c2] at h0
        simp [sliceAx, concatData, PySlice.lo, hn, c2, h0.1]
    · unfold splitAlongAxis
      simp only [Except.bind_eq_ok, sliceAlongAxis_eq_ok]
      exact ⟨_, ⟨fun _ => rfl, List.Forall₂.cons ⟨ax, hax, rfl⟩ List.Forall₂.nil⟩, _,
        ⟨fun _ => rfl, List.Forall₂.cons ⟨ax, hax, rfl⟩ List.Forall₂.nil⟩, rfl⟩

/-- **C41** `split_axis(keep_dims=True)` cuts a pytree into as many slices of thickness 1 as its axis is long, and
`concat_along_axis` puts them together again. -/
theorem C41_split_axis_concat (inputs : List (AnyArr K)) (axis : ℤ) (parts : List (List (AnyArr K)))
    (h : splitAxis inputs axis true = .ok parts) :
    (∀ x ∈ inputs, shapeAt x axis = .ok parts.length) ∧
      ∃ r, concatAlongAxis parts axis = .ok r ∧ List.Forall₂ AnyArr.Eqv r inputs := by
  unfold splitAxis at h
  rw [Except.bind_eq_ok] at h
  obtain ⟨sizes, hs, h⟩ := h
  rw [mapM_eq_ok] at hs
  obtain ⟨ls, fs⟩ := forall2_getElem hs
  cases hd : sizes.dedup with
  | nil => rw [hd] at h; cases h
  | cons n rest =>
    cases rest with
    | cons m rest => rw [hd] at h; cases h
    | nil =>
      rw [hd] at h
      dsimp only at h
      by_cases hn : n = 0
      · rw [if_pos hn] at h; cases h
      rw [if_neg hn, mapM_eq_ok] at h
      obtain ⟨lp, fp⟩ := forall2_getElem h
      rw [List.length_range] at lp
      have hsz : ∀ j (hj : j < inputs.length), shapeAt inputs[j] axis = .ok n := by
        intro j hj
        rw [fs j hj (by omega)]
        have : sizes[j]'(by omega) ∈ sizes.dedup := List.mem_dedup.2 (List.getElem_mem _)
        rw [hd, List.mem_singleton] at this
        rw [this]
      refine ⟨?_, ?_⟩
      · intro x hx
        obtain ⟨j, hj, rfl⟩ := List.getElem_of_mem hx
        rw [hsz j hj, lp]
      have hpart : ∀ t (ht : t < n), ∃ hl : (parts[t]'(by omega)).length = inputs.length, ∀ j (hj : j < inputs.length),
          splitPiece axis true t inputs[j] = .ok ((parts[t]'(by omega))[j]'(by omega)) := by
        intro t ht
        have h1 := fp t (by simpa using ht) (by omega)
        simp only [List.getElem_range] at h1
        rw [mapM_eq_ok] at h1
        obtain ⟨l1, f1⟩ := forall2_getElem h1
        exact ⟨l1.symm, fun j hj => f1 j hj (by omega)⟩
      obtain ⟨t0, ts, hparts⟩ : ∃ t0 ts, parts = t0 :: ts := by
        cases parts with
        | nil => simp at lp; omega
        | cons a b => exact ⟨a, b, rfl⟩
      have key : ∀ j (hj : j < inputs.length), ∃ y, concatLeaves axis (parts.filterMap fun u => u[j]?) = .ok y ∧ y.Eqv inputs[j] := by
        intro j hj
        obtain ⟨dx, x, hx⟩ : ∃ dx x, inputs[j] = (⟨dx, x⟩ : AnyArr K) := ⟨_, _, rfl⟩
        rw [hx]
        have hsx := hsz j hj
        rw [hx] at hsx
        unfold shapeAt at hsx
        cases hax : normalizeAxis axis dx with
        | error e => rw [hax] at hsx; cases hsx
        | ok ax =>
          rw [hax] at hsx
          have hsx := Except.ok.inj hsx
          dsimp only at hsx
          have hfm : (parts.filterMap fun u => u[j]?) = (List.range' 0 n).map fun t => (⟨dx, pieceAx x ax t⟩ : AnyArr K) := by
            have : (parts.filterMap fun u => u[j]?) = parts.map fun u => u.getD j ⟨dx, x⟩ := by
              rw [← List.filterMap_eq_map]
              apply List.filterMap_congr
              intro u hu
              obtain ⟨t, ht, rfl⟩ := List.getElem_of_mem hu
              obtain ⟨hl, _⟩ := hpart t (by omega)
              simp only [Function.comp_apply]
              rw [List.getElem?_eq_getElem (by omega), List.getD_eq_getElem _ _ (by omega)]
            rw [this]
            apply List.ext_getElem (by simp [lp])
            intro t h1 h2
            simp only [List.length_map] at h1
            obtain ⟨hl, hf⟩ := hpart t (by omega)
            have := hf j hj
            rw [hx] at this
            unfold splitPiece at this
            dsimp only at this
            rw [hax] at this
            simp only [Except.bind_ok, if_true] at this
            have := Except.ok.inj this
            simp only [List.getElem_map, List.getElem_range', Nat.zero_add, Nat.one_mul]
            rw [List.getD_eq_getElem _ _ (by omega), ← this]
          obtain ⟨m, rfl⟩ : ∃ m, n = m + 1 := ⟨n - 1, by omega⟩
          rw [hfm, List.range'_succ, List.map_cons]
          have e : (List.map (fun t => (⟨dx, pieceAx x ax t⟩ : AnyArr K)) (List.range' (0 + 1) m)) =
              ((List.range' (0 + 1) m).map (pieceAx x ax)).map fun y => (⟨dx, y⟩ : AnyArr K) := by
            rw [List.map_map]; rfl
          rw [e]
          refine ⟨_, concatLeaves_ok hax _ _ ?_, ?_⟩
          · intro y hy b hb
            obtain ⟨t, _, rfl⟩ := List.mem_map.1 hy
            simp [pieceAx, Function.update_of_ne hb]
          · apply AnyArr.eqv_mk
            constructor
            · funext b
              by_cases hb : b = ax
              · subst hb
                have : ∀ l : List ℕ, ((l.map (pieceAx x b)).map fun y => y.shape b).sum = l.length := by
                  intro l
                  induction l with
                  | nil => rfl
                  | cons t l ih => simp only [List.map_cons, List.sum_cons, ih]; simp [pieceAx]; omega
                simp only [Function.update_self, List.map_cons, List.sum_cons]
                rw [this]
                simp [pieceAx, hsx]
                omega
              · simp [pieceAx, Function.update_of_ne hb]
            · intro i hi
              have h0 := hi ax
              have hsum : Function.update (pieceAx x ax 0).shape ax ((pieceAx x ax 0 :: (List.range' (0 + 1) m).map (pieceAx x ax)).map
                  fun y => y.shape ax).sum ax = m + 1 := by
                have : ∀ l : List ℕ, ((l.map (pieceAx x ax)).map fun y => y.shape ax).sum = l.length := by
                  intro l
                  induction l with
                  | nil => rfl
                  | cons t l ih => simp only [List.map_cons, List.sum_cons, ih]; simp [pieceAx]; omega
                simp only [Function.update_self, List.map_cons, List.sum_cons]
                rw [this]
                simp [pieceAx]
                omega
              have h1 : i ax < ((m + 1 : ℕ) : ℤ) := by
                have := h0.2
                dsimp only at this
                rw [hsum] at this
                exact this
              dsimp only
              rw [concat_pieces x ax m 0 i h0.1 (by push_cast at h1; omega)]
              simp
      choose y hy1 hy2 using key
      refine ⟨List.ofFn fun j : Fin inputs.length => y j j.2, ?_, ?_⟩
      · subst hparts
        have hlen0 : t0.length = inputs.length := (hpart 0 (by omega)).1
        apply concatAlongAxis_ok
        · intro u hu
          obtain ⟨t, ht, rfl⟩ := List.getElem_of_mem hu
          obtain ⟨hl, _⟩ := hpart (t + 1) (by simp at lp; omega)
          simp only [List.getElem_cons_succ] at hl
          omega
        · simp [hlen0]
        · intro j hj hj'
          rw [hy1 j (by omega)]
          simp
      · apply forall2_of_getElem (by simp)
        intro j h1 h2
        simp only [List.getElem_ofFn]
        exact hy2 j h2

/-- **C41** `unstack` (and `split_axis` of a single array without `keep_dims`): entry `k` is the sub-array at position `k` of the
axis, with that axis removed; there are as many entries as the axis is long. -/
theorem C41_unstack {d : ℕ} (x : NArr (d + 1) K) (axis : ℤ) (ax : Fin (d + 1)) (hax : normalizeAxis axis (d + 1) = .ok ax)
    (hn : x.shape ax ≠ 0) :
    unstack ⟨d + 1, x⟩ axis = .ok ((List.range (x.shape ax)).map fun k : ℕ =>
      ⟨d, fun b => x.shape (ax.succAbove b), fun i => x.data (ax.insertNth (k : ℤ) i)⟩) ∧
    splitAxis [⟨d + 1, x⟩] axis = .ok ((List.range (x.shape ax)).map fun k : ℕ =>
      [⟨d, fun b => x.shape (ax.succAbove b), fun i => x.data (ax.insertNth (k : ℤ) i)⟩]) := by
  have hs : shapeAt ⟨d + 1, x⟩ axis = .ok (x.shape ax) := by unfold shapeAt; rw [hax]
  have hp : ∀ k : ℕ, splitPiece axis false k ⟨d + 1, x⟩ =
      .ok ⟨d, fun b => x.shape (ax.succAbove b), fun i => x.data (ax.insertNth (k : ℤ) i)⟩ := by
    intro k
    unfold splitPiece
    dsimp only
    rw [hax]
    simp only [Except.bind_ok, Bool.false_eq_true, if_false]
    show Except.ok (squeezeAx (pieceAx x ax k) ax) = _
    unfold squeezeAx pieceAx
    dsimp only
    congr 3
    · funext b
      rw [Function.update_of_ne (Fin.succAbove_ne ax b)]
    · funext i
      congr 1
      rw [Fin.insertNth_apply_same, zero_add]
      funext b
      by_cases hb : b = ax
      · subst hb; simp
      · obtain ⟨c, rfl⟩ := Fin.exists_succAbove_eq hb
        rw [Function.update_of_ne hb, Fin.insertNth_apply_succAbove, Fin.insertNth_apply_succAbove]
  constructor
  · unfold unstack
    rw [hs]
    simp only [Except.bind_ok]
    rw [if_neg hn, mapM_eq_ok]
    apply forall2_of_getElem (by simp)
    intro k h1 h2
    simp only [List.getElem_map, List.getElem_range]
    exact hp k
  · unfold splitAxis
    simp only [List.mapM_cons, List.mapM_nil, hs, Except.bind_ok, pure, Except.pure]
    have : ([x.shape ax] : List ℕ).dedup = [x.shape ax] := by simp
    simp only [bind, Except.bind, this]
    rw [if_neg hn, mapM_eq_ok]
    apply forall2_of_getElem (by simp)
    intro k h1 h2
    simp only [List.getElem_map, List.getElem_range]
    rw [hp k]

/-- **C41** Pytrees whose leaves differ in size along the axis are rejected by `split_axis`. -/
theorem C41_split_axis_rejects (x y : AnyArr K) (rest : List (AnyArr K)) (axis : ℤ) (m n : ℕ) (keep : Bool)
    (hx : shapeAt x axis = .ok m) (hy : shapeAt y axis = .ok n) (hmn : m ≠ n) (hrest : ∀ z ∈ rest, ∃ k, shapeAt z axis = .ok k) :
    splitAxis (x :: y :: rest) axis keep = .error .value := by
  unfold splitAxis
  obtain ⟨ks, hks⟩ : ∃ ks, rest.mapM (fun x => shapeAt x axis) = .ok ks := by
    induction rest with
    | nil => exact ⟨[], rfl⟩
    | cons z zs ih =>
      obtain ⟨k, hk⟩ := hrest z (by simp)
      obtain ⟨ks, hks⟩ := ih (fun w hw => hrest w (by simp [hw]))
      exact ⟨k :: ks, by rw [List.mapM_cons, hk, hks]; rfl⟩
  rw [List.mapM_cons, List.mapM_cons, hx, hy, hks]
  have hlen : 2 ≤ (m :: n :: ks).dedup.length := by
    have hsub : [m, n] ⊆ (m :: n :: ks).dedup := by
      intro a ha
      rw [List.mem_dedup]
      simp at ha ⊢
      tauto
    have hnd : [m, n].Nodup := by simp [hmn]
    exact (List.subperm_of_subset hnd hsub).length_le
  simp only [bind, Except.bind, pure, Except.pure]
  cases hd : (m :: n :: ks).dedup with
  | nil => rfl
  | cons a l =>
    cases l with
    | nil => rw [hd] at hlen; simp at hlen
    | cons b l => rfl

/-! ### C42 -/

/-- The block of `x` that belongs to output cell `q`. -/
def blockAt (x : NArr d K) (block : Fin d → ℕ) (q : Idx d) : NArr d K :=
  ⟨block, fun r => x.data fun a => q a * block a + r a⟩

/-- **C42** `block_reduce` with block sizes dividing the shape: output cell `q` is the reduction of exactly the entries
`q * block + r`, `0 ≤ r < block`, in their original arrangement; for every reduction that looks at the entries of its argument. -/
theorem C42_blocks (x : NArr d K) (block : Fin d → ℕ) (red : NArr d K → K) (hred : ∀ y z : NArr d K, y.Eqv z → red y = red z)
    (hpos : ∀ a, 0 < block a) (hdvd : ∀ a, block a ∣ x.shape a) :
    ∃ y, blockReduce x block red = .ok y ∧ (∀ a, y.shape a * block a = x.shape a) ∧
      ∀ q : Idx d, InR y.shape q → y.data q = red (blockAt x block q) := by
  obtain ⟨f, hf, hq⟩ := blockReduce_ok x block red hpos hdvd
  refine ⟨_, hf, fun a => Nat.div_mul_cancel (hdvd a), ?_⟩
  intro q hqr
  apply hred
  exact ⟨rfl, fun r hr => hq q r hqr hr⟩

/-- **C42** Block sizes that do not divide the shape are rejected. -/
theorem C42_rejects (x : NArr d K) (block : Fin d → ℕ) (red : NArr d K → K) (hpos : ∀ a, 0 < block a) (a : Fin d)
    (h : ¬ block a ∣ x.shape a) : blockReduce x block red = .error .value := by
  unfold blockReduce
  rw [if_neg (by push Not; exact fun a => (hpos a).ne'), if_pos ⟨a, fun h0 => h (Nat.dvd_of_mod_eq_zero h0)⟩]
  rfl

theorem sum_blocks [AddCommMonoid K] (x : NArr d K) (m block : Fin d → ℕ) (hpos : ∀ a, 0 < block a)
    (hs : ∀ a, m a * block a = x.shape a) :
    ∑ q ∈ box m, ∑ r ∈ box block, (x.data fun a => q a * block a + r a) = ∑ i ∈ box x.shape, x.data i := by
  rw [← Finset.sum_product']
  refine Finset.sum_nbij' (fun p a => p.1 a * block a + p.2 a) (fun i => (fun a => i a / block a, fun a => i a % block a))
    ?_ ?_ ?_ ?_ ?_
  · rintro ⟨q, r⟩ h
    simp only [Finset.mem_product, box, Fintype.mem_piFinset, Finset.mem_Ico] at h ⊢
    intro a
    have h1 := h.1 a
    have h2 := h.2 a
    have h3 : (m a : ℤ) * block a = x.shape a := by exact_mod_cast hs a
    constructor
    · have := h1.1; have := h2.1; positivity
    · nlinarith
  · intro i h
    simp only [Finset.mem_product, box, Fintype.mem_piFinset, Finset.mem_Ico] at h ⊢
    have hb : ∀ a, (0 : ℤ) < block a := fun a => by exact_mod_cast hpos a
    refine ⟨fun a => ⟨Int.ediv_nonneg (h a).1 (hb a).le, ?_⟩, fun a => ⟨Int.emod_nonneg _ (hb a).ne', Int.emod_lt_of_pos _ (hb a)⟩⟩
    have h3 : (m a : ℤ) * block a = x.shape a := by exact_mod_cast hs a
    exact Int.ediv_lt_of_lt_mul (hb a) (by rw [h3]; exact (h a).2)
  · rintro ⟨q, r⟩ h
    simp only [Finset.mem_product, box, Fintype.mem_piFinset, Finset.mem_Ico] at h
    have hb : ∀ a, (0 : ℤ) < block a := fun a => by exact_mod_cast hpos a
    apply Prod.ext
    · funext a
      dsimp only
      rw [add_comm, Int.add_mul_ediv_right _ _ (hb a).ne', Int.ediv_eq_zero_of_lt (h.2 a).1 (h.2 a).2, zero_add]
    · funext a
      dsimp only
      rw [add_comm, Int.add_mul_emod_self_right, Int.emod_eq_of_lt (h.2 a).1 (h.2 a).2]
  · intro i _
    funext a
    exact Int.ediv_mul_add_emod _ _
  · intro p _
    rfl

/-- **C42** Block sums add up to the sum of all entries, and block means have the mean of all entries as their mean. -/
theorem C42_total {K : Type} [Field K] (x : NArr d K) (block : Fin d → ℕ) (hpos : ∀ a, 0 < block a)
    (hdvd : ∀ a, block a ∣ x.shape a) :
    (∃ y, blockReduce x block NArr.sum = .ok y ∧ y.sum = x.sum) ∧ (∃ y, blockReduce x block meanN = .ok y ∧ meanN y = meanN x) := by
  have hsum : ∀ y z : NArr d K, y.Eqv z → y.sum = z.sum := by
    rintro y z ⟨h1, h2⟩
    unfold NArr.sum
    rw [← h1]
    apply Finset.sum_congr rfl
    intro i hi
    apply h2
    intro a
    simpa [box, Fintype.mem_piFinset] using (Fintype.mem_piFinset.1 hi a)
  have hmem : ∀ {s : Fin d → ℕ} {i : Idx d}, i ∈ box s → InR s i := by
    intro s i hi a
    simpa using (Fintype.mem_piFinset.1 hi a)
  constructor
  · obtain ⟨y, hy, hs, hq⟩ := C42_blocks x block NArr.sum hsum hpos hdvd
    refine ⟨y, hy, ?_⟩
    unfold NArr.sum
    rw [Finset.sum_congr rfl (fun q hq' => hq q (hmem hq'))]
    exact sum_blocks x y.shape block hpos hs
  · obtain ⟨y, hy, hs, hq⟩ := C42_blocks x block meanN (fun y z h => by unfold meanN; rw [hsum y z h, h.1]) hpos hdvd
    refine ⟨y, hy, ?_⟩
    unfold meanN
    have e : y.sum = x.sum / ((∏ a, block a : ℕ) : K) := by
      unfold NArr.sum
      rw [Finset.sum_congr rfl (fun q hq' => hq q (hmem hq')), ← sum_blocks x y.shape block hpos hs, Finset.sum_div]
      rfl
    rw [e, div_div, ← Nat.cast_mul, ← Finset.prod_mul_distrib]
    congr 3
    funext a
    rw [mul_comm]
    exact hs a

/-! ### Non-vacuity -/

open Fixtures in
example : ∃ a b, splitAlongAxis [⟨2, u34.toNArr⟩, ⟨1, uCenter.toNArr⟩] (-1) (-1) false = .ok (a, b) := by
  have := (C41_split_defined [(⟨2, u34.toNArr⟩ : AnyArr ℚ), ⟨1, uCenter.toNArr⟩] (-1) (-1) false).2
    ⟨by simp, by simp⟩
  obtain ⟨⟨a, b⟩, h⟩ := this
  exact ⟨a, b, h⟩

open Fixtures in
example : normalizeAxis (-1) 2 = .ok (1 : Fin 2) ∧ u34.shape 1 ≠ 0 := by
  constructor
  · rfl
  · decide

open Fixtures in
example : ∃ parts, splitAxis [⟨2, u34.toNArr⟩] (-1) true = .ok parts := ⟨_, rfl⟩

open Fixtures in
example : (∀ a, 0 < (![3, 2] : Fin 2 → ℕ) a) ∧ ∀ a, (![3, 2] : Fin 2 → ℕ) a ∣ u34.shape a := by
  constructor <;> intro a <;> fin_cases a <;> decide

end JaxCfd
