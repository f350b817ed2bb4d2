import Verif.Model.Pytree
import Verif.Lemmas.Boundaries

/-!
# C06: pytrees
-/

namespace JaxCfd
variable {K L M N : Type}
namespace PyTree

/-! ## Specification -/

mutual
/-- What the constructors of the code guarantee: a GridVariable holds a GridArray and a boundary condition with one entry per
grid dimension; a GridArrayTensor holds as many GridArrays as its shape says. -/
def WellFormed : PyTree K L → Prop
  | leaf _ => True
  | none => True
  | tuple xs => WellFormedL xs
  | list xs => WellFormedL xs
  | gridArray data _ _ => WellFormed data
  | gridVariable array bc => WellFormed array ∧
      ∃ data offset grid, array = gridArray data offset grid ∧ bc.types.length = grid.shape.length
  | tensor shape items => WellFormedL items ∧ items.length = shape.prod ∧ ∀ t ∈ items, t.isGridArray = true
def WellFormedL : List (PyTree K L) → Prop
  | [] => True
  | t :: ts => WellFormed t ∧ WellFormedL ts
end

mutual
/-- The same object with every leaf `x` replaced by `f x`: containers, offsets, grids, boundary conditions and tensor shapes
stay. -/
def mapLeaves (f : L → M) : PyTree K L → PyTree K M
  | leaf x => leaf (f x)
  | none => none
  | tuple xs => tuple (mapLeavesL f xs)
  | list xs => list (mapLeavesL f xs)
  | gridArray data offset grid => gridArray (mapLeaves f data) offset grid
  | gridVariable array bc => gridVariable (mapLeaves f array) bc
  | tensor shape items => tensor shape (mapLeavesL f items)
def mapLeavesL (f : L → M) : List (PyTree K L) → List (PyTree K M)
  | [] => []
  | t :: ts => mapLeaves f t :: mapLeavesL f ts
end

/-! ## Lemmas -/

theorem mapLeavesL_eq (f : L → M) (ts : List (PyTree K L)) : mapLeavesL f ts = ts.map (mapLeaves f) := by
  induction ts with
  | nil => rfl
  | cons t ts ih => rw [mapLeavesL, ih]; rfl

theorem leavesL_eq (ts : List (PyTree K L)) : leavesL ts = ts.flatMap leaves := by
  induction ts with
  | nil => rfl
  | cons t ts ih => rw [leavesL, ih]; rfl

theorem structL_eq (ts : List (PyTree K L)) : structL ts = ts.map struct := by
  induction ts with
  | nil => rfl
  | cons t ts ih => rw [structL, ih]; rfl

theorem wellFormedL_iff (ts : List (PyTree K L)) : WellFormedL ts ↔ ∀ t ∈ ts, WellFormed t := by
  induction ts with
  | nil => simp [WellFormedL]
  | cons t ts ih => simp [WellFormedL, ih]

mutual
theorem mapLeaves_id : ∀ t : PyTree K L, mapLeaves (fun x => x) t = t
  | leaf _ => rfl
  | none => rfl
  | tuple xs => by rw [mapLeaves, mapLeavesL_id xs]
  | list xs => by rw [mapLeaves, mapLeavesL_id xs]
  | gridArray data _ _ => by rw [mapLeaves, mapLeaves_id data]
  | gridVariable array _ => by rw [mapLeaves, mapLeaves_id array]
  | tensor _ items => by rw [mapLeaves, mapLeavesL_id items]
theorem mapLeavesL_id : ∀ ts : List (PyTree K L), mapLeavesL (fun x => x) ts = ts
  | [] => rfl
  | t :: ts => by rw [mapLeavesL, mapLeaves_id t, mapLeavesL_id ts]
end

mutual
theorem mapLeaves_comp (f : L → M) (g : M → N) :
    ∀ t : PyTree K L, mapLeaves g (mapLeaves f t) = mapLeaves (fun x => g (f x)) t
  | leaf _ => rfl
  | none => rfl
  | tuple xs => by simp only [mapLeaves, mapLeavesL_comp f g xs]
  | list xs => by simp only [mapLeaves, mapLeavesL_comp f g xs]
  | gridArray data _ _ => by simp only [mapLeaves, mapLeaves_comp f g data]
  | gridVariable array _ => by simp only [mapLeaves, mapLeaves_comp f g array]
  | tensor _ items => by simp only [mapLeaves, mapLeavesL_comp f g items]
theorem mapLeavesL_comp (f : L → M) (g : M → N) :
    ∀ ts : List (PyTree K L), mapLeavesL g (mapLeavesL f ts) = mapLeavesL (fun x => g (f x)) ts
  | [] => rfl
  | t :: ts => by simp only [mapLeavesL, mapLeaves_comp f g t, mapLeavesL_comp f g ts]
end

mutual
theorem leaves_mapLeaves (f : L → M) : ∀ t : PyTree K L, leaves (mapLeaves f t) = (leaves t).map f
  | leaf _ => rfl
  | none => rfl
  | tuple xs => by simp only [mapLeaves, leaves, leavesL_mapLeaves f xs]
  | list xs => by simp only [mapLeaves, leaves, leavesL_mapLeaves f xs]
  | gridArray data _ _ => by simp only [mapLeaves, leaves, leaves_mapLeaves f data]
  | gridVariable array _ => by simp only [mapLeaves, leaves, leaves_mapLeaves f array]
  | tensor _ items => by simp only [mapLeaves, leaves, leavesL_mapLeaves f items]
theorem leavesL_mapLeaves (f : L → M) : ∀ ts : List (PyTree K L), leavesL (mapLeavesL f ts) = (leavesL ts).map f
  | [] => rfl
  | t :: ts => by simp only [mapLeavesL, leavesL, leaves_mapLeaves f t, leavesL_mapLeaves f ts, List.map_append]
end

mutual
theorem struct_mapLeaves (f : L → M) : ∀ t : PyTree K L, struct (mapLeaves f t) = struct t
  | leaf _ => rfl
  | none => rfl
  | tuple xs => by simp only [mapLeaves, struct, structL_mapLeaves f xs]
  | list xs => by simp only [mapLeaves, struct, structL_mapLeaves f xs]
  | gridArray data _ _ => by simp only [mapLeaves, struct, struct_mapLeaves f data]
  | gridVariable array _ => by simp only [mapLeaves, struct, struct_mapLeaves f array]
  | tensor _ items => by simp only [mapLeaves, struct, structL_mapLeaves f items]
theorem structL_mapLeaves (f : L → M) : ∀ ts : List (PyTree K L), structL (mapLeavesL f ts) = structL ts
  | [] => rfl
  | t :: ts => by simp only [mapLeavesL, structL, struct_mapLeaves f t, structL_mapLeaves f ts]
end

theorem isGridArray_mapLeaves (f : L → M) (t : PyTree K L) : (mapLeaves f t).isGridArray = t.isGridArray := by
  cases t <;> rfl

theorem mkVariable_ok {data : PyTree K L} {offset : List ℚ} {grid : RawGrid K} {bc : RawBC K}
    (h : bc.types.length = grid.shape.length) :
    mkVariable (gridArray data offset grid) bc = .ok (gridVariable (gridArray data offset grid) bc) := by
  unfold mkVariable variableRankCheck
  dsimp only
  rw [if_neg (by simpa using h)]
  rfl

theorem mkTensor_ok {shape : List ℕ} {items : List (PyTree K L)} (h : items.length = shape.prod)
    (ha : ∀ t ∈ items, t.isGridArray = true) : mkTensor shape items = .ok (tensor shape items) := by
  unfold mkTensor
  rw [if_neg (by simpa using ha), if_neg (by simpa using h)]

mutual
theorem build_map (f : L → M) : ∀ (t : PyTree K L), WellFormed t → ∀ rest : List M,
    build (struct t) ((leaves t).map f ++ rest) = .ok (mapLeaves f t, rest)
  | leaf _, _, _ => rfl
  | none, _, _ => rfl
  | tuple xs, h, rest => by
      rw [WellFormed] at h
      simp only [struct, leaves, build, buildL_map f xs h rest, Except.bind_ok, mapLeaves]; rfl
  | list xs, h, rest => by
      rw [WellFormed] at h
      simp only [struct, leaves, build, buildL_map f xs h rest, Except.bind_ok, mapLeaves]; rfl
  | gridArray data o g, h, rest => by
      rw [WellFormed] at h
      simp only [struct, leaves, build, build_map f data h rest, Except.bind_ok, mapLeaves]; rfl
  | gridVariable array bc, h, rest => by
      rw [WellFormed] at h
      obtain ⟨hw, data, o, g, rfl, hl⟩ := h
      have hb := build_map f (gridArray data o g) hw rest
      have e : mapLeaves f (gridVariable (gridArray data o g) bc) =
        gridVariable (gridArray (mapLeaves f data) o g) bc := by simp only [mapLeaves]
      rw [e]
      simp only [mapLeaves] at hb
      rw [struct, leaves, build, hb]
      simp only [Except.bind_ok, mkVariable_ok hl]
      rfl
  | tensor shape items, h, rest => by
      rw [WellFormed] at h
      have hl : (mapLeavesL f items).length = shape.prod := by rw [mapLeavesL_eq, List.length_map]; exact h.2.1
      have ha : ∀ t ∈ mapLeavesL f items, t.isGridArray = true := by
        rw [mapLeavesL_eq]
        intro t ht
        obtain ⟨s, hs, rfl⟩ := List.mem_map.1 ht
        rw [isGridArray_mapLeaves]
        exact h.2.2 s hs
      simp only [struct, leaves, build, buildL_map f items h.1 rest, Except.bind_ok, mkTensor_ok hl ha, mapLeaves]; rfl
theorem buildL_map (f : L → M) : ∀ (ts : List (PyTree K L)), WellFormedL ts → ∀ rest : List M,
    buildL (structL ts) ((leavesL ts).map f ++ rest) = .ok (mapLeavesL f ts, rest)
  | [], _, _ => rfl
  | t :: ts, h, rest => by
      rw [WellFormedL] at h
      simp only [structL, leavesL, List.map_append, List.append_assoc, buildL, build_map f t h.1, buildL_map f ts h.2 rest,
        Except.bind_ok, mapLeavesL]
      rfl
end

mutual
/-- What `build` returns: the leaves consumed, in order, in the given structure, and well formed. -/
theorem build_ok : ∀ (td : TreeDef K) (ls : List L) (t : PyTree K L) (rest : List L),
    build td ls = .ok (t, rest) → ls = leaves t ++ rest ∧ struct t = td ∧ WellFormed t
  | leaf _, ls, t, rest, h => by
      rw [build.eq_def] at h
      dsimp only at h
      match ls, h with
      | x :: r, h =>
        obtain ⟨h1, h2⟩ := Prod.mk.inj (Except.ok.inj h)
        subst h1 h2
        exact ⟨rfl, rfl, trivial⟩
  | none, ls, t, rest, h => by
      rw [build] at h
      obtain ⟨h1, h2⟩ := Prod.mk.inj (Except.ok.inj h)
      subst h1 h2
      exact ⟨rfl, rfl, trivial⟩
  | tuple xs, ls, t, rest, h => by
      rw [build] at h
      obtain ⟨r, hr, h⟩ := Except.bind_eq_ok.1 h
      obtain ⟨h1, h2⟩ := Prod.mk.inj (Except.ok.inj h)
      subst h1 h2
      obtain ⟨a, b, c⟩ := buildL_ok xs ls r.1 r.2 hr
      exact ⟨by rw [leaves]; exact a, by rw [struct, b], by rw [WellFormed]; exact c⟩
  | list xs, ls, t, rest, h => by
      rw [build] at h
      obtain ⟨r, hr, h⟩ := Except.bind_eq_ok.1 h
      obtain ⟨h1, h2⟩ := Prod.mk.inj (Except.ok.inj h)
      subst h1 h2
      obtain ⟨a, b, c⟩ := buildL_ok xs ls r.1 r.2 hr
      exact ⟨by rw [leaves]; exact a, by rw [struct, b], by rw [WellFormed]; exact c⟩
  | gridArray data o g, ls, t, rest, h => by
      rw [build] at h
      obtain ⟨r, hr, h⟩ := Except.bind_eq_ok.1 h
      obtain ⟨h1, h2⟩ := Prod.mk.inj (Except.ok.inj h)
      subst h1 h2
      obtain ⟨a, b, c⟩ := build_ok data ls r.1 r.2 hr
      exact ⟨by rw [leaves]; exact a, by rw [struct, b], by rw [WellFormed]; exact c⟩
  | gridVariable array bc, ls, t, rest, h => by
      rw [build] at h
      obtain ⟨r, hr, h⟩ := Except.bind_eq_ok.1 h
      obtain ⟨v, hv, h⟩ := Except.bind_eq_ok.1 h
      obtain ⟨h1, h2⟩ := Prod.mk.inj (Except.ok.inj h)
      subst h1 h2
      obtain ⟨a, b, c⟩ := build_ok array ls r.1 r.2 hr
      generalize r.1 = s at *
      cases s with
      | gridArray data o g =>
        unfold mkVariable variableRankCheck at hv
        dsimp only at hv
        by_cases hl : bc.types.length = g.shape.length
        · rw [if_neg (by simpa using hl)] at hv
          have hv' := Except.ok.inj hv
          subst hv'
          exact ⟨by rw [leaves]; exact a, by rw [struct, b], by rw [WellFormed]; exact ⟨c, data, o, g, rfl, hl⟩⟩
        · rw [if_pos (by simpa using hl)] at hv
          cases hv
      | _ => exact absurd hv (by simp [mkVariable])
  | tensor shape items, ls, t, rest, h => by
      rw [build] at h
      obtain ⟨r, hr, h⟩ := Except.bind_eq_ok.1 h
      obtain ⟨v, hv, h⟩ := Except.bind_eq_ok.1 h
      obtain ⟨h1, h2⟩ := Prod.mk.inj (Except.ok.inj h)
      subst h1 h2
      obtain ⟨a, b, c⟩ := buildL_ok items ls r.1 r.2 hr
      unfold mkTensor at hv
      by_cases h1 : r.1.all isGridArray = false
      · rw [if_pos h1] at hv; cases hv
      · by_cases h2 : r.1.length = shape.prod
        · rw [if_neg h1, if_neg (by simpa using h2)] at hv
          have hv' := Except.ok.inj hv
          subst hv'
          exact ⟨by rw [leaves]; exact a, by rw [struct, b], by
            rw [WellFormed]; exact ⟨c, h2, by simpa using h1⟩⟩
        · rw [if_neg h1, if_pos h2] at hv; cases hv
theorem buildL_ok : ∀ (tds : List (TreeDef K)) (ls : List L) (ts : List (PyTree K L)) (rest : List L),
    buildL tds ls = .ok (ts, rest) → ls = leavesL ts ++ rest ∧ structL ts = tds ∧ WellFormedL ts
  | [], ls, ts, rest, h => by
      rw [buildL] at h
      obtain ⟨h1, h2⟩ := Prod.mk.inj (Except.ok.inj h)
      subst h1 h2
      exact ⟨rfl, rfl, trivial⟩
  | td :: tds, ls, ts, rest, h => by
      rw [buildL] at h
      obtain ⟨r, hr, h⟩ := Except.bind_eq_ok.1 h
      obtain ⟨rs, hrs, h⟩ := Except.bind_eq_ok.1 h
      obtain ⟨h1, h2⟩ := Prod.mk.inj (Except.ok.inj h)
      subst h1 h2
      obtain ⟨a, b, c⟩ := build_ok td ls r.1 r.2 hr
      obtain ⟨a', b', c'⟩ := buildL_ok tds r.2 rs.1 rs.2 hrs
      exact ⟨by rw [leavesL, List.append_assoc, ← a', ← a], by rw [structL, b, b'], by rw [WellFormedL]; exact ⟨c, c'⟩⟩
end

/-! ## Theorems -/

/-- **C06** Flattening and unflattening is lossless for every well-formed object. -/
theorem C06_roundtrip (t : PyTree K L) (h : WellFormed t) : unflatten (struct t) (leaves t) = .ok t := by
  have := build_map (fun x : L => x) t h []
  rw [List.append_nil, List.map_id'] at this
  unfold unflatten
  rw [this, mapLeaves_id]
  rfl

/-- **C06** Whatever `tree_unflatten` returns is well formed (the dimension check of GridVariable runs again), has the given
structure and exactly the given leaves in the given order; conversely such an object is what it returns. -/
theorem C06_unflatten (td : TreeDef K) (ls : List L) (t : PyTree K L) :
    unflatten td ls = .ok t ↔ WellFormed t ∧ struct t = td ∧ leaves t = ls := by
  constructor
  · intro h
    unfold unflatten at h
    obtain ⟨r, hr, h⟩ := Except.bind_eq_ok.1 h
    by_cases he : r.2.isEmpty = true
    · rw [if_pos he] at h
      have h' := Except.ok.inj h
      subst h'
      obtain ⟨a, b, c⟩ := build_ok td ls r.1 r.2 hr
      rw [List.isEmpty_iff.1 he, List.append_nil] at a
      exact ⟨c, b, a.symm⟩
    · rw [if_neg he] at h; cases h
  · rintro ⟨h, rfl, rfl⟩
    exact C06_roundtrip t h

/-- **C06** Two well-formed objects with the same leaves and the same structure are equal. -/
theorem C06_lossless (t s : PyTree K L) (ht : WellFormed t) (hs : WellFormed s) (h : struct t = struct s)
    (hl : leaves t = leaves s) : t = s := by
  have a := C06_roundtrip t ht
  rw [h, hl, C06_roundtrip s hs] at a
  exact (Except.ok.inj a).symm

/-- **C06** `tree_map` replaces every leaf and nothing else. -/
theorem C06_tree_map (f : L → M) (t : PyTree K L) (h : WellFormed t) : treeMap f t = .ok (mapLeaves f t) := by
  have := build_map f t h []
  rw [List.append_nil] at this
  unfold treeMap unflatten
  rw [this]
  rfl

/-- **C06** Functor laws of `tree_map`. -/
theorem C06_tree_map_laws (f : L → M) (g : M → N) (t : PyTree K L) (h : WellFormed t) :
    treeMap (fun x => x) t = .ok t ∧ ((treeMap f t >>= fun s => treeMap g s) = treeMap (fun x => g (f x)) t) := by
  refine ⟨by rw [C06_tree_map _ t h, mapLeaves_id], ?_⟩
  have hw : WellFormed (mapLeaves f t) := ((C06_unflatten _ _ _).1 (C06_tree_map f t h)).1
  rw [C06_tree_map f t h, Except.bind_ok, C06_tree_map g _ hw, C06_tree_map _ t h, mapLeaves_comp]

mutual
theorem flattenUpTo_same [DecidableEq K] (f : L → M) : ∀ t : PyTree K L, ∀ s : PyTree K M, struct t = struct s →
    flattenUpTo (struct t) s = .ok ((leaves s).map leaf)
  | leaf _, s, h => by
      cases s with
      | leaf _ => rfl
      | _ => exact absurd h (by simp [struct])
  | none, s, h => by
      cases s with
      | none => rfl
      | _ => exact absurd h (by simp [struct])
  | tuple xs, s, h => by
      cases s with
      | tuple ys =>
        rw [struct, struct, tuple.injEq] at h
        rw [struct, flattenUpTo, leaves]
        exact flattenUpToL_same f xs ys h
      | _ => exact absurd h (by simp [struct])
  | list xs, s, h => by
      cases s with
      | list ys =>
        rw [struct, struct, list.injEq] at h
        rw [struct, flattenUpTo, leaves]
        exact flattenUpToL_same f xs ys h
      | _ => exact absurd h (by simp [struct])
  | gridArray data o g, s, h => by
      cases s with
      | gridArray data' o' g' =>
        rw [struct, struct, gridArray.injEq] at h
        rw [struct, flattenUpTo, leaves, if_pos h.2]
        exact flattenUpTo_same f data data' h.1
      | _ => exact absurd h (by simp [struct])
  | gridVariable array bc, s, h => by
      cases s with
      | gridVariable array' bc' =>
        rw [struct, struct, gridVariable.injEq] at h
        rw [struct, flattenUpTo, leaves, if_pos h.2]
        exact flattenUpTo_same f array array' h.1
      | _ => exact absurd h (by simp [struct])
  | tensor shape items, s, h => by
      cases s with
      | tensor shape' items' =>
        rw [struct, struct, tensor.injEq] at h
        rw [struct, flattenUpTo, leaves, if_pos h.1]
        exact flattenUpToL_same f items items' h.2
      | _ => exact absurd h (by simp [struct])
theorem flattenUpToL_same [DecidableEq K] (f : L → M) : ∀ ts : List (PyTree K L), ∀ ss : List (PyTree K M),
    structL ts = structL ss → flattenUpToL (structL ts) ss = .ok ((leavesL ss).map leaf)
  | [], ss, h => by
      cases ss with
      | nil => rfl
      | cons _ _ => exact absurd h (by simp [structL])
  | t :: ts, ss, h => by
      cases ss with
      | nil => exact absurd h (by simp [structL])
      | cons s ss =>
        rw [structL, structL, List.cons.injEq] at h
        rw [structL, flattenUpToL, flattenUpTo_same f t s h.1, flattenUpToL_same f ts ss h.2, leavesL, List.map_append]
        rfl
end

mutual
theorem mapLeaves_unit : ∀ t : PyTree K L, mapLeaves (fun _ : L => ()) t = struct t
  | leaf _ => rfl
  | none => rfl
  | tuple xs => by rw [mapLeaves, struct, mapLeavesL_unit xs]
  | list xs => by rw [mapLeaves, struct, mapLeavesL_unit xs]
  | gridArray data _ _ => by rw [mapLeaves, struct, mapLeaves_unit data]
  | gridVariable array _ => by rw [mapLeaves, struct, mapLeaves_unit array]
  | tensor _ items => by rw [mapLeaves, struct, mapLeavesL_unit items]
theorem mapLeavesL_unit : ∀ ts : List (PyTree K L), mapLeavesL (fun _ : L => ()) ts = structL ts
  | [] => rfl
  | t :: ts => by rw [mapLeavesL, structL, mapLeaves_unit t, mapLeavesL_unit ts]
end

theorem struct_leaves_length (t : PyTree K L) : (leaves (struct t)).length = (leaves t).length := by
  rw [← mapLeaves_unit, leaves_mapLeaves, List.length_map]

mutual
theorem build_fill : ∀ (t : PyTree K L), WellFormed t → ∀ ms rest : List M, ms.length = (leaves t).length →
    ∃ r : PyTree K M, build (struct t) (ms ++ rest) = .ok (r, rest) ∧
      ∀ data o g, t = gridArray data o g → ∃ data', r = gridArray data' o g
  | leaf _, _, ms, rest, h => by
      match ms, h with
      | [m], _ => exact ⟨leaf m, rfl, fun _ _ _ h => nomatch h⟩
  | none, _, ms, rest, h => by
      match ms, h with
      | [], _ => exact ⟨none, rfl, fun _ _ _ h => nomatch h⟩
  | tuple xs, hw, ms, rest, h => by
      rw [WellFormed] at hw
      rw [leaves] at h
      obtain ⟨rs, hr, -⟩ := buildL_fill xs hw ms rest h
      exact ⟨tuple rs, by rw [struct, build, hr]; rfl, fun _ _ _ h => nomatch h⟩
  | list xs, hw, ms, rest, h => by
      rw [WellFormed] at hw
      rw [leaves] at h
      obtain ⟨rs, hr, -⟩ := buildL_fill xs hw ms rest h
      exact ⟨list rs, by rw [struct, build, hr]; rfl, fun _ _ _ h => nomatch h⟩
  | gridArray data o g, hw, ms, rest, h => by
      rw [WellFormed] at hw
      rw [leaves] at h
      obtain ⟨r, hr, -⟩ := build_fill data hw ms rest h
      refine ⟨gridArray r o g, by rw [struct, build, hr]; rfl, fun _ _ _ h => ?_⟩
      rw [gridArray.injEq] at h
      exact ⟨r, by rw [h.2.1, h.2.2]⟩
  | gridVariable array bc, hw, ms, rest, h => by
      rw [WellFormed] at hw
      rw [leaves] at h
      obtain ⟨r, hr, hg⟩ := build_fill array hw.1 ms rest h
      obtain ⟨-, data, o, g, ha, hl⟩ := hw
      obtain ⟨data', rfl⟩ := hg data o g ha
      exact ⟨gridVariable (gridArray data' o g) bc, by
        rw [struct, build, hr, Except.bind_ok]
        dsimp only
        rw [mkVariable_ok hl]; rfl, fun _ _ _ h => nomatch h⟩
  | tensor shape items, hw, ms, rest, h => by
      rw [WellFormed] at hw
      rw [leaves] at h
      obtain ⟨rs, hr, hlen, hg⟩ := buildL_fill items hw.1 ms rest h
      exact ⟨tensor shape rs, by
        rw [struct, build, hr, Except.bind_ok]
        dsimp only
        rw [mkTensor_ok (by rw [hlen]; exact hw.2.1) (hg hw.2.2)]; rfl, fun _ _ _ h => nomatch h⟩
theorem buildL_fill : ∀ (ts : List (PyTree K L)), WellFormedL ts → ∀ ms rest : List M, ms.length = (leavesL ts).length →
    ∃ rs : List (PyTree K M), buildL (structL ts) (ms ++ rest) = .ok (rs, rest) ∧ rs.length = ts.length ∧
      ((∀ t ∈ ts, t.isGridArray = true) → ∀ r ∈ rs, r.isGridArray = true)
  | [], _, ms, rest, h => by
      match ms, h with
      | [], _ => exact ⟨[], rfl, rfl, fun _ r hr => by cases hr⟩
  | t :: ts, hw, ms, rest, h => by
      rw [WellFormedL] at hw
      rw [leavesL, List.length_append] at h
      obtain ⟨r, hr, hg⟩ := build_fill t hw.1 (ms.take (leaves t).length) (ms.drop (leaves t).length ++ rest)
        (by rw [List.length_take]; omega)
      obtain ⟨rs, hrs, hlen, hgs⟩ := buildL_fill ts hw.2 (ms.drop (leaves t).length) rest (by rw [List.length_drop]; omega)
      refine ⟨r :: rs, ?_, by simp [hlen], fun ha r' hr' => ?_⟩
      · rw [← List.append_assoc, List.take_append_drop] at hr
        rw [structL, buildL, hr, Except.bind_ok]
        dsimp only
        rw [hrs]; rfl
      · rcases List.mem_cons.1 hr' with rfl | hr'
        · have h0 := ha t (List.mem_cons_self ..)
          cases t with
          | gridArray data o g =>
            obtain ⟨d', rfl⟩ := hg data o g rfl
            rfl
          | _ => exact absurd h0 (by simp [isGridArray])
        · exact hgs (fun t ht => ha t (List.mem_cons_of_mem _ ht)) r' hr'
end

/-- **C06** A structure accepts exactly the leaf lists of its length; any other length is an error. -/
theorem C06_leaf_count (t : PyTree K L) (ht : WellFormed t) (ms : List M) :
    (∃ r, unflatten (struct t) ms = .ok r) ↔ ms.length = (leaves t).length := by
  constructor
  · rintro ⟨r, hr⟩
    obtain ⟨-, h1, h2⟩ := (C06_unflatten _ _ _).1 hr
    rw [← h2, ← struct_leaves_length r, h1, struct_leaves_length]
  · intro h
    obtain ⟨r, hr, -⟩ := build_fill t ht ms [] h
    rw [List.append_nil] at hr
    exact ⟨r, by unfold unflatten; rw [hr]; rfl⟩

/-- **C06** `tree_map` with two trees of one structure: the function sees corresponding leaves, the result has that
structure. -/
theorem C06_tree_map2 [DecidableEq K] (f : L → PyTree K L → M) (t s : PyTree K L) (ht : WellFormed t)
    (h : struct t = struct s) :
    ∃ r : PyTree K M, treeMap2 f t s = .ok r ∧ WellFormed r ∧ struct r = struct t ∧
      leaves r = List.zipWith (fun x y => f x (leaf y)) (leaves t) (leaves s) := by
  have hlen : (leaves t).length = (leaves s).length := by
    rw [← struct_leaves_length t, h, struct_leaves_length]
  obtain ⟨r, hr⟩ := (C06_leaf_count t ht (List.zipWith (fun x y => f x (leaf y)) (leaves t) (leaves s))).2
    (by rw [List.length_zipWith, hlen, Nat.min_self])
  obtain ⟨h1, h2, h3⟩ := (C06_unflatten _ _ _).1 hr
  refine ⟨r, ?_, h1, h2, h3⟩
  unfold treeMap2
  rw [flattenUpTo_same (fun x : L => x) t s h, Except.bind_ok, List.zipWith_map_right]
  exact hr

/-- A GridVariable whose data is the leaf `x`. -/
def variableOf (x : L) (offset : List ℚ) (grid : RawGrid K) (bc : RawBC K) : PyTree K L :=
  gridVariable (gridArray (leaf x) offset grid) bc

/-- **C06** `tree_map` over two GridVariables combines the data when offset, grid and boundary condition agree, and is a
ValueError otherwise. -/
theorem C06_variables [DecidableEq K] (f : L → PyTree K L → M) (x y : L) (o o' : List ℚ) (g g' : RawGrid K) (bc bc' : RawBC K)
    (h : bc.types.length = g.shape.length) :
    treeMap2 f (variableOf x o g bc) (variableOf y o' g' bc') =
      if o = o' ∧ g = g' ∧ bc = bc' then .ok (variableOf (f x (leaf y)) o g bc) else .error .value := by
  have hu : ∀ z : M, unflatten (struct (variableOf x o g bc)) [z] = .ok (variableOf z o g bc) := fun z => by
    have := C06_roundtrip (variableOf z o g bc) (by
      unfold variableOf
      rw [WellFormed]
      exact ⟨by rw [WellFormed, WellFormed]; trivial, _, _, _, rfl, h⟩)
    simpa [variableOf, struct, leaves] using this
  unfold treeMap2
  have hf : flattenUpTo (struct (variableOf x o g bc)) (variableOf y o' g' bc') =
      if o = o' ∧ g = g' ∧ bc = bc' then .ok [leaf y] else .error .value := by
    unfold variableOf
    rw [struct, struct, struct, flattenUpTo]
    by_cases hb : bc = bc'
    · rw [if_pos hb, flattenUpTo]
      by_cases ho : o = o' ∧ g = g'
      · rw [if_pos ho, if_pos ⟨ho.1, ho.2, hb⟩]; rfl
      · rw [if_neg ho, if_neg (fun hc => ho ⟨hc.1, hc.2.1⟩)]
    · rw [if_neg hb, if_neg (fun hc => hb hc.2.2)]
  rw [hf]
  by_cases hc : o = o' ∧ g = g' ∧ bc = bc'
  · rw [if_pos hc, if_pos hc, Except.bind_ok]
    have := hu (f x (leaf y))
    simpa [variableOf, leaves] using this
  · rw [if_neg hc, if_neg hc]; rfl

/-- **C06** A GridVariable is accepted iff its array is a GridArray and its boundary condition has one entry per grid dimension;
otherwise it is a ValueError. -/
theorem C06_variable_check (a : PyTree K L) (bc : RawBC K) :
    ((∃ v, mkVariable a bc = .ok v) ↔ ∃ data o g, a = gridArray data o g ∧ bc.types.length = g.shape.length) ∧
    (∀ v, mkVariable a bc = .ok v → v = gridVariable a bc) ∧
    ∀ e, mkVariable a bc = .error e → e = .value := by
  cases a with
  | gridArray data o g =>
    by_cases hl : bc.types.length = g.shape.length
    · rw [mkVariable_ok hl]
      exact ⟨⟨fun _ => ⟨data, o, g, rfl, hl⟩, fun _ => ⟨_, rfl⟩⟩, fun v hv => (Except.ok.inj hv).symm, (fun e he => nomatch he)⟩
    · have : mkVariable (gridArray data o g) bc = .error .value := by
        unfold mkVariable variableRankCheck
        dsimp only
        rw [if_pos hl]
        rfl
      rw [this]
      refine ⟨⟨fun ⟨v, hv⟩ => (nomatch hv), fun ⟨_, _, _, hq, hl'⟩ => ?_⟩, (fun v hv => nomatch hv), fun e he => (Except.error.inj he).symm⟩
      rw [gridArray.injEq] at hq
      exact absurd (by rw [hq.2.2]; exact hl') hl
  | _ => simp [mkVariable]

/-- **C06** The leaves of a rank 2 GridArrayTensor are in row-major order, and mapping over it maps entry (i, j) to entry
(i, j). -/
theorem C06_tensor (rows : List (List (PyTree K L))) (cols : ℕ) (hc : ∀ r ∈ rows, r.length = cols)
    (hw : ∀ r ∈ rows, ∀ t ∈ r, WellFormed t ∧ t.isGridArray = true) (f : L → M) :
    ∃ t, tensorOfRows rows cols = .ok t ∧ WellFormed t ∧ leaves t = rows.flatMap (fun r => r.flatMap leaves) ∧
      ∃ s, treeMap f t = .ok s ∧ tensorOfRows (rows.map fun r => r.map (mapLeaves f)) cols = .ok s := by
  have hlen : rows.flatten.length = [rows.length, cols].prod := by
    rw [List.length_flatten, List.map_congr_left hc]
    simp
  have ha : ∀ t ∈ rows.flatten, t.isGridArray = true := fun t ht => by
    obtain ⟨r, hr, ht⟩ := List.mem_flatten.1 ht
    exact (hw r hr t ht).2
  have h1 : tensorOfRows rows cols = .ok (tensor [rows.length, cols] rows.flatten) := by
    unfold tensorOfRows
    rw [if_neg (by simpa using hc), mkTensor_ok hlen ha]
  have hwf : WellFormed (tensor [rows.length, cols] rows.flatten) := by
    rw [WellFormed, wellFormedL_iff]
    refine ⟨fun t ht => ?_, hlen, ha⟩
    obtain ⟨r, hr, ht⟩ := List.mem_flatten.1 ht
    exact (hw r hr t ht).1
  refine ⟨_, h1, hwf, ?_, _, C06_tree_map f _ hwf, ?_⟩
  · rw [leaves, leavesL_eq]
    induction rows with
    | nil => rfl
    | cons r rs ih =>
      rw [List.flatten_cons, List.flatMap_append, List.flatMap_cons]
      congr 1
      clear ih hlen ha h1 hwf
      have : ∀ rs : List (List (PyTree K L)), rs.flatten.flatMap leaves = rs.flatMap (fun r => r.flatMap leaves) := fun rs => by
        induction rs with
        | nil => rfl
        | cons r rs ih => rw [List.flatten_cons, List.flatMap_append, List.flatMap_cons, ih]
      exact this rs
  · unfold tensorOfRows
    rw [if_neg (by simpa using hc)]
    have e : (rows.map fun r => r.map (mapLeaves f)).flatten = rows.flatten.map (mapLeaves f) := by
      rw [List.map_flatten]
    rw [e, List.length_map, mkTensor_ok (by rw [List.length_map]; exact hlen) (fun t ht => by
      obtain ⟨s, hs, rfl⟩ := List.mem_map.1 ht
      rw [isGridArray_mapLeaves]; exact ha s hs), mapLeaves, mapLeavesL_eq]

/-- The pytree of a typed GridVariable of the rest of the model. -/
def ofVariable {d : ℕ} [Field K] (u : GridVariable d K) : PyTree K (NArr d K) :=
  variableOf u.array.toNArr (List.ofFn u.array.offset)
    ⟨List.ofFn u.array.grid.shape, List.ofFn u.array.grid.step, List.ofFn u.array.grid.domain⟩
    ⟨u.bc.cls, List.ofFn u.bc.types, List.ofFn u.bc.bcValues⟩

/-- **C06** Every GridVariable of the model is a well-formed tree; tuples of variables with the same leaves and the same
structure are the same variables: nothing is lost, offsets, grids and boundary conditions included. -/
theorem C06_model_variables {d : ℕ} [Field K] (us vs : List (GridVariable d K)) :
    unflatten (struct (tuple (us.map ofVariable))) (us.map fun u => u.array.toNArr) = .ok (tuple (us.map ofVariable)) ∧
    (struct (tuple (us.map ofVariable)) = struct (tuple (vs.map ofVariable)) →
      (us.map fun u => u.array.toNArr) = (vs.map fun u => u.array.toNArr) → us = vs) := by
  have hw : ∀ us : List (GridVariable d K), WellFormed (tuple (us.map ofVariable)) := fun us => by
    rw [WellFormed, wellFormedL_iff]
    intro t ht
    obtain ⟨u, _, rfl⟩ := List.mem_map.1 ht
    unfold ofVariable variableOf
    rw [WellFormed]
    exact ⟨by rw [WellFormed, WellFormed]; trivial, _, _, _, rfl, by simp⟩
  have hl : ∀ us : List (GridVariable d K), leaves (tuple (us.map ofVariable)) = us.map fun u => u.array.toNArr := fun us => by
    rw [leaves, leavesL_eq]
    induction us with
    | nil => rfl
    | cons u us ih =>
      rw [List.map_cons, List.flatMap_cons, ih, List.map_cons]
      simp [ofVariable, variableOf, leaves]
  refine ⟨by rw [← hl us]; exact C06_roundtrip _ (hw us), fun h h' => ?_⟩
  have ht := C06_lossless _ _ (hw us) (hw vs) h (by rw [hl, hl, h'])
  rw [tuple.injEq] at ht
  refine List.map_injective_iff.2 (fun u v huv => ?_) ht
  unfold ofVariable variableOf at huv
  rw [gridVariable.injEq, gridArray.injEq, leaf.injEq] at huv
  obtain ⟨⟨h1, h2, h3⟩, h4⟩ := huv
  obtain ⟨ua, ⟨uc, ut, uv⟩⟩ := u
  obtain ⟨va, ⟨vc, vt, vv⟩⟩ := v
  obtain ⟨ud, uo, ⟨us, udm⟩⟩ := ua
  obtain ⟨vd, vo, ⟨vs, vdm⟩⟩ := va
  simp only [RawGrid.mk.injEq, RawBC.mk.injEq, List.ofFn_inj] at h1 h2 h3 h4
  obtain ⟨ha, -, hb⟩ := h3
  obtain ⟨hc, hd, he⟩ := h4
  subst h1 h2 ha hb hc hd he
  rfl

/-! ## Examples -/

/-- A 2 × 3 grid of step 1. -/
def exampleGrid : RawGrid ℚ := ⟨[2, 3], [1, 1], [(0, 2), (0, 3)]⟩
/-- Periodic in both directions. -/
def exampleBC : RawBC ℚ := ⟨.homogeneous, [(.periodic, .periodic), (.periodic, .periodic)], [(.none, .none), (.none, .none)]⟩
/-- A velocity, a tensor and a `None`, with leaves numbered 1 to 6. -/
def exampleTree : PyTree ℚ ℕ :=
  tuple [list [variableOf 1 [1, 1/2] exampleGrid exampleBC, variableOf 2 [1/2, 1] exampleGrid exampleBC], none,
    tensor [2, 2] [gridArray (leaf 3) [0, 0] exampleGrid, gridArray (leaf 4) [0, 0] exampleGrid,
      gridArray (leaf 5) [0, 0] exampleGrid, gridArray (leaf 6) [0, 0] exampleGrid]]

theorem exampleTree_wellFormed : WellFormed exampleTree := by
  simp [exampleTree, WellFormed, WellFormedL, variableOf, isGridArray, exampleGrid, exampleBC]

example : leaves exampleTree = [1, 2, 3, 4, 5, 6] := by
  simp [exampleTree, leaves, leavesL, variableOf]
example : unflatten (struct exampleTree) [1, 2, 3, 4, 5, 6] = .ok exampleTree := by
  have h := C06_roundtrip exampleTree exampleTree_wellFormed
  simpa [exampleTree, leaves, leavesL, variableOf] using h
example : ¬ ∃ r, unflatten (struct exampleTree) [1, 2, 3] = .ok r := by
  rw [C06_leaf_count exampleTree exampleTree_wellFormed]
  simp [exampleTree, leaves, leavesL, variableOf]
example : treeMap2 (fun x _ => x) (variableOf 1 [1, 1/2] exampleGrid exampleBC) (variableOf 2 [1/2, 1] exampleGrid exampleBC)
    = .error .value := by
  rw [C06_variables _ _ _ _ _ _ _ _ _ rfl, if_neg (by norm_num)]

end PyTree
end JaxCfd
