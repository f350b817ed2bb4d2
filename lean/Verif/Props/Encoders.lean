import Verif.Model.Encoders
import Verif.Lemmas.Rfft
import Verif.Lemmas.Filter
import Mathlib.Tactic.IntervalCases
import Verif.Lemmas.Advection
import Verif.Lemmas.Interp
import Verif.Lemmas.ArrayUtils
import Verif.Props.Impose
import Verif.Props.SpectralNS

/-!
# C61: encoders and decoders
-/

namespace JaxCfd.ML
variable {d : ℕ}

/-- The last frame of a trajectory with time as axis 0. -/
def lastFrame (x : NArr (d + 1) ℝ) : NArr d ℝ :=
  ⟨fun b => x.shape b.succ, fun i => x.data (Fin.cons (α := fun _ => ℤ) ((x.shape 0 : ℤ) - 1) i)⟩

/-- Every component has a frame. -/
def HasFrames (inputs : List (NArr (d + 1) ℝ)) : Prop := ∀ x ∈ inputs, 0 < x.shape 0

theorem sliceLast_ok {x : NArr (d + 1) ℝ} (h : 0 < x.shape 0) : sliceLast x = .ok (lastFrame x) := by
  unfold sliceLast Metric.takeAx Metric.pyIndex
  rw [if_pos ⟨by omega, by omega⟩, if_pos (by omega)]
  show Except.ok _ = Except.ok _
  unfold lastFrame
  congr 2
  funext i
  rw [Fin.insertNth_zero]
  congr 2

theorem sliceLast_error {x : NArr (d + 1) ℝ} (h : x.shape 0 = 0) : sliceLast x = .error .index := by
  unfold sliceLast Metric.takeAx Metric.pyIndex
  rw [if_neg (by omega)]
  rfl

section
variable [HasNan ℝ]

/-- **C61.** `aligned_array_encoder` of a periodic problem wraps the last frame of component `k` as a variable on face `k` of the
grid; components beyond the dimension of the grid are dropped.  `aligned_array_decoder` returns those frames unchanged. -/
theorem C61_aligned (g : Grid d ℝ) (inputs : List (NArr (d + 1) ℝ)) (h0 : HasFrames inputs)
    (hs : ∀ x ∈ inputs, ∀ b, x.shape (Fin.succ b) = g.shape b) :
    ∃ v, alignedArrayEncoder g none none none inputs = .ok v ∧ v.length = min inputs.length d ∧
      (∀ k (hk : k < v.length) (hd : k < d) (hi : k < inputs.length),
        v[k] = ⟨⟨lastFrame inputs[k], g.cellFaces ⟨k, hd⟩, g⟩, periodicBC d⟩) ∧
      alignedArrayDecoder v = (inputs.take d).map lastFrame := by
  refine ⟨(inputs.zip (List.ofFn g.cellFaces)).map fun p => ⟨⟨lastFrame p.1, p.2, g⟩, periodicBC d⟩, ?_, by simp, ?_, ?_⟩
  · unfold alignedArrayEncoder
    dsimp only [Option.getD_none]
    have hz : inputs.zip ((List.ofFn g.cellFaces).zip (List.replicate inputs.length (periodicBC d : BC d ℝ))) =
        (inputs.zip (List.ofFn g.cellFaces)).map fun p => (p.1, p.2, (periodicBC d : BC d ℝ)) := by
      refine List.ext_getElem (by simp [Nat.min_comm]) fun k h1 h2 => by simp
    rw [hz, mapM_eq_ok, List.forall₂_map_left_iff, List.forall₂_map_right_iff, List.forall₂_same]
    rintro ⟨x, o⟩ hx
    have hm : x ∈ inputs := (List.of_mem_zip hx).1
    dsimp only
    rw [sliceLast_ok (h0 x hm), Except.bind_ok]
    exact imposeBC_periodic _ _ (fun a => rfl) fun a => hs x hm a
  · intro k hk hd hi
    simp
  · unfold alignedArrayDecoder
    rw [List.map_map]
    refine List.ext_getElem (by simp [Nat.min_comm]) fun k h1 h2 => by simp

/-- **C61.** An empty trajectory is rejected. -/
theorem C61_aligned_empty (g : Grid d ℝ) (hd : 0 < d) (x : NArr (d + 1) ℝ) (h : x.shape 0 = 0) :
    alignedArrayEncoder g none none none [x] = .error .index := by
  obtain ⟨n, rfl⟩ : ∃ n, d = n + 1 := ⟨d - 1, by omega⟩
  unfold alignedArrayEncoder
  dsimp only [Option.getD_none]
  rw [List.ofFn_succ]
  show (List.mapM _ [(x, _, _)]) = _
  rw [List.mapM_cons]
  dsimp only
  rw [sliceLast_error h]
  rfl

/-- **C61.** With boundary conditions and offsets given by the physics specification, every component of the encoded state is the last
frame with its boundary condition imposed, and encoding a trajectory that ends with the decoded state gives the same state again. -/
theorem C61_aligned_restart (g : Grid d ℝ) (offsets : List (Fin d → ℚ)) (bcs : List (BC d ℝ)) (inputs inputs' : List (NArr (d + 1) ℝ))
    (v : List (GridVariable d ℝ)) (hl : offsets.length = inputs.length) (hb : bcs.length = inputs.length)
    (h : alignedArrayEncoder g (some offsets) none (some bcs) inputs = .ok v)
    (hgrid : ∀ k (h1 : k < inputs.length) (h2 : k < offsets.length) (h3 : k < bcs.length), bcs[k].OnGrid ⟨lastFrame inputs[k], offsets[k], g⟩)
    (hin : HasFrames inputs) (hin' : HasFrames inputs')
    (hlast : inputs'.map lastFrame = alignedArrayDecoder v) :
    (∀ k (h1 : k < inputs.length) (h2 : k < offsets.length) (h3 : k < bcs.length) (h4 : k < v.length),
      bcs[k].imposeBC ⟨lastFrame inputs[k], offsets[k], g⟩ = .ok v[k]) ∧
    ∃ v', alignedArrayEncoder g (some offsets) none (some bcs) inputs' = .ok v' ∧ List.Forall₂ GridVariable.Eqv v' v := by
  have hv : v.length = inputs.length ∧ ∀ k (h1 : k < inputs.length) (h2 : k < offsets.length) (h3 : k < bcs.length) (h4 : k < v.length),
      bcs[k].imposeBC ⟨lastFrame inputs[k], offsets[k], g⟩ = .ok v[k] := by
    unfold alignedArrayEncoder at h
    dsimp only [Option.getD_some] at h
    obtain ⟨e1, e2⟩ := forall2_getElem ((mapM_eq_ok _ _ _).1 h)
    have hlen : v.length = inputs.length := by rw [← e1]; simp [hl, hb]
    refine ⟨hlen, fun k h1 h2 h3 h4 => ?_⟩
    have := e2 k (by simp; omega) h4
    simp only [List.getElem_zip] at this
    rwa [sliceLast_ok (hin _ (List.getElem_mem h1)), Except.bind_ok] at this
  obtain ⟨hlen, hv⟩ := hv
  refine ⟨hv, ?_⟩
  have hl' : inputs'.length = v.length := by
    have := congrArg List.length hlast
    simpa [alignedArrayDecoder] using this
  have key : ∀ k (h1 : k < v.length), ∃ r, (bcs[k]'(by omega)).imposeBC ⟨lastFrame (inputs'[k]'(by omega)), offsets[k]'(by omega), g⟩ = .ok r ∧
      r.Eqv v[k] := by
    intro k h1
    obtain ⟨r, r', e1, e2, e3⟩ := C12_impose_bc_idempotent (bcs[k]'(by omega)) ⟨lastFrame (inputs[k]'(by omega)), offsets[k]'(by omega), g⟩
      (hgrid k (by omega) (by omega) (by omega))
    rw [hv k (by omega) (by omega) (by omega) h1] at e1
    have e1 := Except.ok.inj e1
    obtain ⟨q, hq, -, qo, qg, -⟩ := C12_impose_bc (bcs[k]'(by omega)) ⟨lastFrame (inputs[k]'(by omega)), offsets[k]'(by omega), g⟩
      (hgrid k (by omega) (by omega) (by omega))
    rw [hv k (by omega) (by omega) (by omega) h1] at hq
    have hq := Except.ok.inj hq
    have hf : lastFrame (inputs'[k]'(by omega)) = v[k].array.toNArr := by
      have := congrArg (fun l => l[k]?) hlast
      simp only [alignedArrayDecoder, List.getElem?_map] at this
      rw [List.getElem?_eq_getElem (by omega), List.getElem?_eq_getElem h1] at this
      exact Option.some.inj this
    refine ⟨r', ?_, e1 ▸ e3⟩
    rw [hf]
    have : (⟨v[k].array.toNArr, offsets[k]'(by omega), g⟩ : GridArray d ℝ) = v[k].array := by
      rw [hq]
      exact GridArray.ext' rfl rfl qo.symm qg.symm
    rw [this]
    unfold GridVariable.imposeBC at e2
    rw [← e1] at e2
    have hbc : v[k].bc = bcs[k]'(by omega) := by rw [hq]
    rw [hbc] at e2
    exact e2
  choose r hr using key
  refine ⟨List.ofFn fun k : Fin v.length => r k k.2, ?_, forall2_of_getElem (by simp) fun k h1 h2 => ?_⟩
  · unfold alignedArrayEncoder
    dsimp only [Option.getD_some]
    rw [mapM_eq_ok]
    refine forall2_of_getElem (by simp; omega) fun k h1 h2 => ?_
    simp only [List.getElem_zip, List.getElem_ofFn]
    rw [sliceLast_ok (hin' _ (List.getElem_mem _)), Except.bind_ok]
    exact (hr k (by simpa using h2)).1
  · simp only [List.getElem_ofFn]
    exact (hr k h2).2

end

/-! ## Collocated data -/

section
variable [HasNan ℝ]

theorem lerp_half (s : Fin d → ℕ) (a : Fin d) (f : Idx d → ℝ) (i : Idx d) (hi : InR s i) :
    lerp ℝ s a (1 - 1 / 2) f i = (f i + f (rollIdx s a 1 i)) / 2 := by
  have h1 : ⌊(1 - 1 / 2 : ℚ)⌋ = 0 := by norm_num
  have h2 : ⌈(1 - 1 / 2 : ℚ)⌉ = 1 := by norm_num
  unfold lerp floorWeight
  rw [h1, h2, if_neg (by norm_num), if_neg (by norm_num), rollIdx_zero hi]
  push_cast
  ring

theorem lerp_neg_half (s : Fin d → ℕ) (a : Fin d) (f : Idx d → ℝ) (i : Idx d) (hi : InR s i) :
    lerp ℝ s a (1 / 2 - 1) f i = (f (rollIdx s a (-1) i) + f i) / 2 := by
  have h1 : ⌊(1 / 2 - 1 : ℚ)⌋ = -1 := by norm_num
  have h2 : ⌈(1 / 2 - 1 : ℚ)⌉ = 0 := by norm_num
  unfold lerp floorWeight
  rw [h1, h2, if_neg (by norm_num), if_neg (by norm_num), rollIdx_zero hi]
  push_cast
  ring

theorem cellFaces_update (g : Grid d ℝ) (a : Fin d) : g.cellFaces a = Function.update g.cellCenter a 1 := by
  funext b
  unfold Grid.cellFaces Grid.cellCenter
  by_cases h : b = a
  · subst h; simp
  · simp [h]

theorem cellCenter_update (g : Grid d ℝ) (a : Fin d) : g.cellCenter = Function.update (g.cellFaces a) a (1 / 2) := by
  rw [cellFaces_update, Function.update_idem]
  funext b
  by_cases h : b = a
  · subst h; simp [Grid.cellCenter]
  · simp [h]

/-- **C61.** `collocated_to_staggered_encoder` averages component `k` of the last frame along axis `k` to the faces;
`staggered_to_collocated_decoder` averages back, so that the round trip is the smoothing `(x[i-1] + 2 x[i] + x[i+1]) / 4` along the
component's own axis, which keeps the sum of every component. -/
theorem C61_collocated (g : Grid d ℝ) (hg : ∀ a, 0 < g.shape a) (inputs : List (NArr (d + 1) ℝ)) (hd : inputs.length = d)
    (h0 : HasFrames inputs) (hs : ∀ x ∈ inputs, ∀ b, x.shape (Fin.succ b) = g.shape b) :
    ∃ v out, collocatedToStaggeredEncoder g inputs = .ok v ∧ staggeredToCollocatedDecoder g v = .ok out ∧ v.length = d ∧ out.length = d ∧
      ∀ (k : Fin d) (hv : (k : ℕ) < v.length) (ho : (k : ℕ) < out.length) (hi : (k : ℕ) < inputs.length),
        (v[(k : ℕ)].array.offset = g.cellFaces k ∧ v[(k : ℕ)].array.grid = g ∧ v[(k : ℕ)].array.shape = g.shape ∧ v[(k : ℕ)].bc = periodicBC d ∧
          ∀ i : Idx d, InR g.shape i → v[(k : ℕ)].array.data i =
            ((lastFrame inputs[(k : ℕ)]).data i + (lastFrame inputs[(k : ℕ)]).data (rollIdx g.shape k 1 i)) / 2) ∧
        (out[(k : ℕ)].shape = g.shape ∧ ∀ i : Idx d, InR g.shape i → out[(k : ℕ)].data i =
          ((lastFrame inputs[(k : ℕ)]).data (rollIdx g.shape k (-1) i) + 2 * (lastFrame inputs[(k : ℕ)]).data i +
            (lastFrame inputs[(k : ℕ)]).data (rollIdx g.shape k 1 i)) / 4) ∧
        ∑ i ∈ box g.shape, out[(k : ℕ)].data i = ∑ i ∈ box g.shape, (lastFrame inputs[(k : ℕ)]).data i := by
  have hfs : ∀ (k : ℕ) (hk : k < inputs.length), (lastFrame inputs[k]).shape = g.shape := fun k hk => by
    funext b; exact hs _ (List.getElem_mem hk) b
  have hper : ∀ (k : ℕ) (hk : k < inputs.length) (o : Fin d → ℚ) (f : Idx d → ℝ),
      (⟨⟨⟨(lastFrame inputs[k]).shape, f⟩, o, g⟩, periodicBC d⟩ : GridVariable d ℝ).Periodic := by
    intro k hk o f
    exact ⟨fun a => rfl, fun a => ⟨congrFun (hfs k hk) a, hg a⟩⟩
  set enc : Fin d → GridVariable d ℝ := fun k => ⟨⟨⟨(lastFrame (inputs[(k : ℕ)]'(by omega))).shape,
    lerp ℝ (lastFrame (inputs[(k : ℕ)]'(by omega))).shape k (1 - 1 / 2) (lastFrame (inputs[(k : ℕ)]'(by omega))).data⟩,
      g.cellFaces k, g⟩, periodicBC d⟩ with henc
  set dec : Fin d → NArr d ℝ := fun k => ⟨(enc k).array.shape, lerp ℝ (enc k).array.shape k (1 / 2 - 1) (enc k).array.data⟩ with hdec
  have h1 : collocatedToStaggeredEncoder g inputs = .ok (List.ofFn enc) := by
    unfold collocatedToStaggeredEncoder
    have hm : (inputs.mapM fun x => do
        let y ← sliceLast x
        return (⟨⟨y, g.cellCenter, g⟩, periodicBC d⟩ : GridVariable d ℝ)) = .ok (inputs.map fun x => ⟨⟨lastFrame x, g.cellCenter, g⟩, periodicBC d⟩) := by
      rw [mapM_eq_ok, List.forall₂_map_right_iff, List.forall₂_same]
      intro x hx
      rw [sliceLast_ok (h0 x hx)]; rfl
    rw [hm, Except.bind_ok, mapM_eq_ok]
    refine forall2_of_getElem (by simp [hd]) fun k h1 h2 => ?_
    have hk : k < d := by simpa using h2
    simp only [List.getElem_zip, List.getElem_map, List.getElem_ofFn]
    rw [cellFaces_update]
    have := linear_one_axis (hper k (by omega) g.cellCenter (lastFrame (inputs[k]'(by omega))).data) ⟨k, hk⟩ 1
    refine this.trans ?_
    simp only [henc, cellFaces_update]
    rfl
  have h2 : staggeredToCollocatedDecoder g (List.ofFn enc) = .ok (List.ofFn dec) := by
    unfold staggeredToCollocatedDecoder
    have hm : (List.ofFn enc).mapM (fun c => linear c g.cellCenter) = .ok (List.ofFn fun k => ⟨⟨dec k, g.cellCenter, g⟩, periodicBC d⟩) := by
      rw [mapM_eq_ok]
      refine forall2_of_getElem (by simp) fun k h1 h2 => ?_
      have hk : k < d := by simpa using h2
      simp only [List.getElem_ofFn]
      have := linear_one_axis (hper k (by omega) (g.cellFaces ⟨k, hk⟩) (enc ⟨k, hk⟩).array.data) ⟨k, hk⟩ (1 / 2)
      have e : g.cellFaces ⟨k, hk⟩ ⟨k, hk⟩ = 1 := by rw [cellFaces_update]; simp
      dsimp only at this
      rw [e, ← cellCenter_update g ⟨k, hk⟩] at this
      exact this
    rw [hm, Except.bind_ok]
    show Except.ok _ = Except.ok _
    rw [List.map_ofFn]
    rfl
  have hround : ∀ (k : Fin d) (hi : (k : ℕ) < inputs.length), ∀ i : Idx d, InR g.shape i → (dec k).data i =
          ((lastFrame inputs[(k : ℕ)]).data (rollIdx g.shape k (-1) i) + 2 * (lastFrame inputs[(k : ℕ)]).data i +
            (lastFrame inputs[(k : ℕ)]).data (rollIdx g.shape k 1 i)) / 4 := by
    intro k hk i hi
    have e1 : (dec k).data i = lerp ℝ g.shape k (1 / 2 - 1) (lerp ℝ g.shape k (1 - 1 / 2) (lastFrame inputs[(k : ℕ)]).data) i := by
      rw [hdec, henc]; dsimp only; rw [hfs]
    rw [e1, lerp_neg_half _ _ _ _ hi, lerp_half _ _ _ _ hi, lerp_half _ _ _ _ (rollIdx_inR hi _ _), rollIdx_add]
    norm_num
    rw [rollIdx_zero hi]
    ring
  refine ⟨List.ofFn enc, List.ofFn dec, h1, h2, by simp, by simp, fun k hv ho hi => ?_⟩
  simp only [List.getElem_ofFn]
  refine ⟨⟨rfl, rfl, hfs k hi, rfl, fun i hir => ?_⟩, ⟨hfs k hi, hround k hi⟩, ?_⟩
  · have e : (enc k).array.data i = lerp ℝ g.shape k (1 - 1 / 2) (lastFrame inputs[(k : ℕ)]).data i := by rw [henc]; dsimp only; rw [hfs]
    exact e.trans (lerp_half _ _ _ _ hir)
  · rw [Finset.sum_congr rfl fun i hi' => hround k hi i (mem_box.1 hi'), ← Finset.sum_div, Finset.sum_add_distrib, Finset.sum_add_distrib,
      sum_roll g.shape k (-1) (lastFrame inputs[(k : ℕ)]).data, sum_roll g.shape k 1 (lastFrame inputs[(k : ℕ)]).data, ← Finset.mul_sum]
    ring

end

/-! ## Stacking frames as channels -/

/-- The number of frames that `slice(-n, None)` keeps: `n = 0` keeps all of them. -/
def keptFrames (n T : ℕ) : ℕ := if n = 0 then T else min n T

theorem slice_kept (n T : ℕ) : PySlice.len ⟨some (-(n : ℤ)), none, 1⟩ T = keptFrames n T ∧
    PySlice.lo ⟨some (-(n : ℤ)), none, 1⟩ T = (T : ℤ) - keptFrames n T := by
  unfold keptFrames
  simp only [PySlice.len, PySlice.hi, PySlice.lo, Option.map_some, Option.map_none, Option.getD_some, Option.getD_none, clipBound]
  constructor <;> split_ifs <;> first | omega | (simp; omega) | simp

/-- The last frames of `x` (those `slice_along_axis(x, 0, slice(-n, None))` keeps), with the axis `a` moved to the end. -/
theorem sliceLastN_ok (n : ℕ) (timeAxis : ℤ) (a : Fin (d + 1)) (ha : normalizeAxis timeAxis (d + 1) = .ok a) (inputs : List (NArr (d + 1) ℝ))
    (hne : inputs ≠ []) :
    sliceLastNStateEncoder n timeAxis inputs = .ok (inputs.map fun x => moveLast (sliceAx x 0 ⟨some (-(n : ℤ)), none, 1⟩) a) := by
  unfold sliceLastNStateEncoder
  rw [if_neg hne, mapM_eq_ok, List.forall₂_map_right_iff, List.forall₂_same]
  intro x _
  rw [ha]
  rfl

theorem normalizeAxis_zero : normalizeAxis 0 (d + 1) = .ok 0 := by
  unfold normalizeAxis
  rw [dif_pos ⟨by omega, by omega⟩]
  rfl

/-- Where the frames end up: the time index becomes the last one. -/
theorem moveLast_data (n : ℕ) (x : NArr (d + 1) ℝ) (i : Idx d) (t : ℤ) :
    (moveLast (sliceAx x 0 ⟨some (-(n : ℤ)), none, 1⟩) 0).data (Fin.snoc (α := fun _ => ℤ) i t) =
      x.data (Fin.cons (α := fun _ => ℤ) ((x.shape 0 : ℤ) - keptFrames n (x.shape 0) + t) i) := by
  unfold moveLast sliceAx
  dsimp only
  rw [(slice_kept n _).2, Fin.snoc_last]
  congr 1
  funext b
  refine Fin.cases ?_ (fun b => ?_) b
  · simp
  · rw [Function.update_of_ne (Fin.succ_ne_zero b), Fin.insertNth_zero]
    simp

theorem moveLast_shape (n : ℕ) (x : NArr (d + 1) ℝ) :
    (moveLast (sliceAx x 0 ⟨some (-(n : ℤ)), none, 1⟩) 0).shape = Fin.snoc (α := fun _ => ℕ) (fun b => x.shape b.succ) (keptFrames n (x.shape 0)) := by
  unfold moveLast sliceAx
  dsimp only
  rw [(slice_kept n _).1]
  congr 1

/-- **C61.** `slice_last_state_encoder` returns the last frame of every leaf. -/
theorem C61_slice_last (inputs : List (NArr (d + 1) ℝ)) (hne : inputs ≠ []) (h0 : HasFrames inputs) :
    sliceLastStateEncoder 0 inputs = .ok (inputs.map lastFrame) := by
  unfold sliceLastStateEncoder Metric.takeAlongAxis
  rw [if_neg hne, mapM_eq_ok, List.forall₂_map_right_iff, List.forall₂_same]
  intro x hx
  rw [normalizeAxis_zero, Except.bind_ok]
  exact sliceLast_ok (h0 x hx)

/-- **C61.** Along another time axis it returns the last slice along that axis. -/
theorem C61_slice_last_axis (timeAxis : ℤ) (a : Fin (d + 1)) (ha : normalizeAxis timeAxis (d + 1) = .ok a) (inputs : List (NArr (d + 1) ℝ))
    (hne : inputs ≠ []) (h0 : ∀ x ∈ inputs, 0 < x.shape a) :
    sliceLastStateEncoder timeAxis inputs = .ok (inputs.map fun x =>
      ⟨fun b => x.shape (a.succAbove b), fun i => x.data (a.insertNth (α := fun _ => ℤ) ((x.shape a : ℤ) - 1) i)⟩) := by
  unfold sliceLastStateEncoder Metric.takeAlongAxis
  rw [if_neg hne, mapM_eq_ok, List.forall₂_map_right_iff, List.forall₂_same]
  intro x hx
  have := h0 x hx
  rw [ha, Except.bind_ok]
  unfold Metric.takeAx Metric.pyIndex
  rw [if_pos ⟨by omega, by omega⟩, if_pos (by omega)]
  show Except.ok _ = Except.ok _
  congr 2

/-- **C61.** `slice_last_n_state_encoder` keeps the last `n` frames (all of them if `n` is 0 or larger than their number) and moves
time to the last axis. -/
theorem C61_slice_last_n (n : ℕ) (inputs : List (NArr (d + 1) ℝ)) (hne : inputs ≠ []) :
    ∃ out, sliceLastNStateEncoder n 0 inputs = .ok out ∧ List.Forall₂ (fun (x y : NArr (d + 1) ℝ) =>
      y.shape = Fin.snoc (α := fun _ => ℕ) (fun b => x.shape b.succ) (keptFrames n (x.shape 0)) ∧
      ∀ (i : Idx d) (t : ℤ), y.data (Fin.snoc (α := fun _ => ℤ) i t) =
        x.data (Fin.cons (α := fun _ => ℤ) ((x.shape 0 : ℤ) - keptFrames n (x.shape 0) + t) i)) inputs out := by
  refine ⟨_, sliceLastN_ok n 0 0 normalizeAxis_zero inputs hne, ?_⟩
  rw [List.forall₂_map_right_iff, List.forall₂_same]
  exact fun x _ => ⟨moveLast_shape n x, moveLast_data n x⟩

/-- **C61 (defect).** For any other `time_axis` the slice is still taken along axis 0: *all* time steps survive, and a spatial axis is
cut instead. -/
theorem C61_time_axis_defect (n : ℕ) (timeAxis : ℤ) (a : Fin (d + 1)) (ha : normalizeAxis timeAxis (d + 1) = .ok a) (ha0 : a ≠ 0)
    (x : NArr (d + 1) ℝ) : ∃ y, sliceLastNStateEncoder n timeAxis [x] = .ok [y] ∧ y.shape (Fin.last d) = x.shape a ∧
      ∃ b : Fin d, y.shape b.castSucc = keptFrames n (x.shape 0) := by
  refine ⟨_, sliceLastN_ok n timeAxis a ha [x] (by simp), ?_, ?_⟩
  · unfold moveLast sliceAx
    dsimp only
    rw [Fin.snoc_last, Function.update_of_ne ha0]
  · obtain ⟨b, hb⟩ := Fin.exists_succAbove_eq (x := (0 : Fin (d + 1))) (y := a) (Ne.symm ha0)
    refine ⟨b, ?_⟩
    unfold moveLast sliceAx
    dsimp only
    rw [Fin.snoc_castSucc, hb, Function.update_self, (slice_kept n _).1]

/-- Concatenation of arrays of equal size along the last axis. -/
theorem concatData_equal (m : ℕ) : ∀ (x : NArr (d + 1) ℝ) (xs : List (NArr (d + 1) ℝ)) (_ : ∀ y ∈ x :: xs, y.shape (Fin.last d) = m)
    (k : ℕ) (hk : k < (x :: xs).length) (i : Idx d) (t : ℤ) (_ : 0 ≤ t) (_ : t < m),
    concatData (Fin.last d) x xs (Fin.snoc (α := fun _ => ℤ) i ((k : ℤ) * m + t)) = ((x :: xs)[k]).data (Fin.snoc (α := fun _ => ℤ) i t)
  | x, [], _, k, hk, i, t, _, _ => by
      have : k = 0 := by simpa using hk
      subst this
      simp [concatData]
  | x, y :: ys, h, k, hk, i, t, h0, h1 => by
      have hx : x.shape (Fin.last d) = m := h x (by simp)
      unfold concatData
      rw [Fin.snoc_last, hx]
      cases k with
      | zero => rw [if_pos (by push_cast; omega)]; simp
      | succ k =>
        rw [if_neg (by push_cast; nlinarith)]
        have e : Function.update (Fin.snoc (α := fun _ => ℤ) i (((k + 1 : ℕ) : ℤ) * m + t)) (Fin.last d) (((k + 1 : ℕ) : ℤ) * m + t - m) =
            Fin.snoc (α := fun _ => ℤ) i ((k : ℤ) * m + t) := by
          funext b
          refine Fin.lastCases ?_ (fun b => ?_) b
          · rw [Function.update_self, Fin.snoc_last]; push_cast; ring
          · rw [Function.update_of_ne (Fin.castSucc_lt_last b).ne, Fin.snoc_castSucc, Fin.snoc_castSucc]
        rw [e]
        exact concatData_equal m y ys (fun z hz => h z (List.mem_cons_of_mem _ hz)) k (by simpa using hk) i t h0 h1

/-- Components with `T` frames of one shape. -/
def UniformFrames (s : Fin d → ℕ) (T : ℕ) (inputs : List (NArr (d + 1) ℝ)) : Prop :=
  ∀ x ∈ inputs, x.shape = Fin.cons (α := fun _ => ℕ) T s

/-- **C61.** `stack_last_n_state_encoder` puts the last `n` frames of all components into the channels of one array: channel
`k * n + t` holds frame `T - n + t` of component `k`. -/
theorem C61_stack_last_n (n : ℕ) (s : Fin d → ℕ) (T : ℕ) (inputs : List (NArr (d + 1) ℝ)) (hne : inputs ≠ []) (hu : UniformFrames s T inputs) :
    ∃ r, stackLastNStateEncoder n 0 inputs = .ok r ∧ r.shape = Fin.snoc (α := fun _ => ℕ) s (inputs.length * keptFrames n T) ∧
      ∀ (k : ℕ) (hk : k < inputs.length) (t : ℕ) (_ : t < keptFrames n T) (i : Idx d),
        r.data (Fin.snoc (α := fun _ => ℤ) i ((k : ℤ) * keptFrames n T + t)) =
          inputs[k].data (Fin.cons (α := fun _ => ℤ) ((T : ℤ) - keptFrames n T + t) i) := by
  obtain ⟨x, xs, rfl⟩ : ∃ x xs, inputs = x :: xs := List.exists_cons_of_ne_nil hne
  set F : NArr (d + 1) ℝ → NArr (d + 1) ℝ := fun x => moveLast (sliceAx x 0 ⟨some (-(n : ℤ)), none, 1⟩) 0 with hF
  have hT : ∀ y ∈ x :: xs, y.shape 0 = T := fun y hy => by rw [hu y hy]; rfl
  have hFs : ∀ y ∈ x :: xs, (F y).shape = Fin.snoc (α := fun _ => ℕ) s (keptFrames n T) := fun y hy => by
    rw [hF]; dsimp only; rw [moveLast_shape, hT y hy, hu y hy]; rfl
  have h1 : stackLastNStateEncoder n 0 (x :: xs) = concatN (Fin.last d) (F x) (xs.map F) := by
    unfold stackLastNStateEncoder
    rw [sliceLastN_ok n 0 0 normalizeAxis_zero _ hne]
    rfl
  rw [h1]
  unfold concatN
  rw [if_pos ?side]
  case side =>
    intro y hy b _
    obtain ⟨z, hz, rfl⟩ := List.mem_map.1 hy
    rw [hFs z (List.mem_cons_of_mem _ hz), hFs x (by simp)]
  refine ⟨_, rfl, ?_, ?_⟩
  · have hsum : ((F x :: xs.map F).map fun y => y.shape (Fin.last d)).sum = (x :: xs).length * keptFrames n T := by
      have : (F x :: xs.map F).map (fun y => y.shape (Fin.last d)) = (x :: xs).map fun _ => keptFrames n T := by
        rw [← List.map_cons, List.map_map]
        refine List.map_congr_left fun y hy => ?_
        show (F y).shape (Fin.last d) = _
        rw [hFs y hy, Fin.snoc_last]
      rw [this, List.map_const', List.sum_replicate, smul_eq_mul]
    show Function.update _ _ _ = _
    rw [hsum, hFs x (by simp)]
    funext b
    refine Fin.lastCases ?_ (fun b => ?_) b
    · simp
    · rw [Function.update_of_ne (Fin.castSucc_lt_last b).ne, Fin.snoc_castSucc, Fin.snoc_castSucc]
  · intro k hk t ht i
    show concatData _ _ _ _ = _
    have := concatData_equal (keptFrames n T) (F x) (xs.map F) (fun y hy => by
      rw [← List.map_cons (f := F)] at hy
      obtain ⟨z, hz, rfl⟩ := List.mem_map.1 hy
      rw [hFs z hz, Fin.snoc_last]) k (by simpa using hk) i t (by omega) (by exact_mod_cast ht)
    rw [this]
    have e : (F x :: xs.map F)[k]'(by simpa using hk) = F ((x :: xs)[k]) := by
      simp only [← List.map_cons, List.getElem_map]
    rw [e, hF]
    dsimp only
    rw [moveLast_data, hT _ (List.getElem_mem hk)]

/-- **C61.** `channels_split_decoder` returns the channels, and an array without channels is rejected. -/
theorem C61_split (x : NArr (d + 1) ℝ) :
    (x.shape (Fin.last d) = 0 → channelsSplitDecoder x = .error .zeroDivision) ∧
    (0 < x.shape (Fin.last d) → ∃ out, channelsSplitDecoder x = .ok out ∧ out.length = x.shape (Fin.last d) ∧
      ∀ c (hc : c < out.length), out[c].shape = (fun b => x.shape (Fin.castSucc b)) ∧
        ∀ i : Idx d, out[c].data i = x.data (Fin.snoc (α := fun _ => ℤ) i (c : ℤ))) := by
  unfold channelsSplitDecoder
  constructor
  · intro h; rw [if_pos h]
  · intro h
    rw [if_neg (by omega)]
    exact ⟨_, rfl, by simp, fun c hc => by simp⟩

/-- **C61.** Splitting what was stacked returns the frames, component by component. -/
theorem C61_split_stack (n : ℕ) (s : Fin d → ℕ) (T : ℕ) (hT : 0 < T) (inputs : List (NArr (d + 1) ℝ)) (hne : inputs ≠ [])
    (hu : UniformFrames s T inputs) :
    ∃ r out, stackLastNStateEncoder n 0 inputs = .ok r ∧ channelsSplitDecoder r = .ok out ∧ out.length = inputs.length * keptFrames n T ∧
      ∀ (k : ℕ) (hk : k < inputs.length) (t : ℕ) (_ : t < keptFrames n T) (hc : k * keptFrames n T + t < out.length),
        out[k * keptFrames n T + t].shape = s ∧
        ∀ i : Idx d, out[k * keptFrames n T + t].data i = inputs[k].data (Fin.cons (α := fun _ => ℤ) ((T : ℤ) - keptFrames n T + t) i) := by
  obtain ⟨r, h1, h2, h3⟩ := C61_stack_last_n n s T inputs hne hu
  have hk : 0 < keptFrames n T := by unfold keptFrames; split_ifs <;> omega
  have hlast : r.shape (Fin.last d) = inputs.length * keptFrames n T := by rw [h2, Fin.snoc_last]
  obtain ⟨out, h4, h5, h6⟩ := (C61_split r).2 (by rw [hlast]; exact Nat.mul_pos (List.length_pos_iff.2 hne) hk)
  refine ⟨r, out, h1, h4, by rw [h5, hlast], fun k hk t ht hc => ?_⟩
  obtain ⟨h7, h8⟩ := h6 _ hc
  refine ⟨?_, fun i => ?_⟩
  · rw [h7, h2]; funext b; rw [Fin.snoc_castSucc]
  · rw [h8, ← h3 k hk t ht i]
    push_cast
    rfl

/-! ## Learned encoders -/

/-- One array whose channels are the entries of a list. -/
def Channels (l : List (NArr d ℝ)) (x : NArr (d + 1) ℝ) : Prop :=
  x.shape (Fin.last d) = l.length ∧ ∀ c (hc : c < l.length), (l[c]).shape = (fun b => x.shape (Fin.castSucc b)) ∧
    ∀ i : Idx d, (l[c]).data i = x.data (Fin.snoc (α := fun _ => ℤ) i (c : ℤ))

theorem stackLast_ok {l : List (NArr d ℝ)} {x : NArr (d + 1) ℝ} (h : stackLast l = .ok x) : Channels l x := by
  unfold stackLast at h
  split at h
  · cases h
  · next a as =>
    split_ifs at h with hs
    have e := Except.ok.inj h
    subst e
    refine ⟨by simp, fun c hc => ⟨?_, fun i => ?_⟩⟩
    · have : (a :: as)[c].shape = a.shape := by
        rcases List.mem_cons.1 (List.getElem_mem hc) with h | h
        · rw [h]
        · exact hs _ h
      rw [this]
      funext b
      dsimp only
      rw [Fin.snoc_castSucc]
    · dsimp only
      rw [Fin.snoc_last, Int.toNat_natCast, List.getElem?_eq_getElem hc, Option.getD_some]
      congr 1
      funext b
      rw [Fin.snoc_castSucc]

/-- **C61.** `aligned_latent_decoder` applies the network to the array whose channels are the components of the state and returns the
channels of its output; the network is asked for `num_components` channels, or one per dimension if that is `None` or 0. -/
theorem C61_aligned_latent_decoder (tower : Tower d) (components : Option ℕ) (v : List (GridVariable d ℝ)) (out : List (NArr d ℝ))
    (h : alignedLatentDecoder tower components v = .ok out) :
    ∃ x y, Channels (v.map fun u => u.array.toNArr) x ∧
      tower (if components.getD 0 = 0 then d else components.getD 0) x = .ok y ∧ Channels out y := by
  unfold alignedLatentDecoder at h
  obtain ⟨x, hx, h⟩ := Except.bind_eq_ok.1 h
  unfold latentDecoder at h
  obtain ⟨y, hy, h⟩ := Except.bind_eq_ok.1 h
  refine ⟨x, y, stackLast_ok hx, ?_, ?_⟩
  · rw [← hy]
    congr 1
    rcases components with _ | (_ | k) <;> simp
  · by_cases h0 : y.shape (Fin.last d) = 0
    · rw [(C61_split y).1 h0] at h; cases h
    · obtain ⟨o, h1, h2, h3⟩ := (C61_split y).2 (by omega)
      rw [h] at h1
      have e := Except.ok.inj h1
      subst e
      exact ⟨h2.symm, h3⟩

/-- **C61.** `aligned_latent_encoder` wraps the channels of the network's output as periodic variables at the given offsets. -/
theorem C61_aligned_latent_encoder (g : Grid d ℝ) (tower : Tower d) (latent : ℕ) (n : ℤ) (timeAxis : ℤ) (offsets : List (Fin d → ℚ)) (ho : offsets ≠ [])
    (inputs : List (NArr (d + 1) ℝ)) (v : List (GridVariable d ℝ)) (h : alignedLatentEncoder g tower latent n timeAxis (some offsets) inputs = .ok v) :
    ∃ x y, stackLastNStateEncoder n timeAxis inputs = .ok x ∧ tower latent x = .ok y ∧ v.length = min (y.shape (Fin.last d)) offsets.length ∧
      ∀ c (hc : c < v.length) (hc' : c < offsets.length), v[c].array.offset = offsets[c] ∧ v[c].array.grid = g ∧ v[c].bc = periodicBC d ∧
        v[c].array.shape = (fun b => y.shape (Fin.castSucc b)) ∧ ∀ i : Idx d, v[c].array.data i = y.data (Fin.snoc (α := fun _ => ℤ) i (c : ℤ)) := by
  obtain ⟨o, os, rfl⟩ := List.exists_cons_of_ne_nil ho
  unfold alignedLatentEncoder at h
  obtain ⟨x, hx, h⟩ := Except.bind_eq_ok.1 h
  obtain ⟨y, hy, h⟩ := Except.bind_eq_ok.1 h
  have e := Except.ok.inj h
  subst e
  refine ⟨x, y, hx, hy, by simp, fun c hc hc' => ?_⟩
  simp

/-- **C61.** Learned encoders see the last `n` frames only: earlier frames do not influence the encoded state. -/
theorem C61_latent_causal (tower : Tower d) (latent n : ℕ) (inputs inputs' : List (NArr (d + 1) ℝ)) (hn : 0 < n)
    (h : List.Forall₂ (fun (x y : NArr (d + 1) ℝ) => x.shape = y.shape ∧
      ∀ (i : Idx d) (t : ℤ), (x.shape 0 : ℤ) - n ≤ t → 0 ≤ t → x.data (Fin.cons (α := fun _ => ℤ) t i) = y.data (Fin.cons (α := fun _ => ℤ) t i)) inputs inputs')
    (hext : ∀ m a b, NArr.Eqv a b → tower m a = tower m b) (s : Fin d → ℕ) (T : ℕ) (hu : UniformFrames s T inputs) (hne : inputs ≠ []) :
    latentEncoder tower latent n 0 inputs = latentEncoder tower latent n 0 inputs' := by
  have hl : inputs.length = inputs'.length := h.length_eq
  have hne' : inputs' ≠ [] := by rintro rfl; exact hne (List.length_eq_zero_iff.1 hl)
  have hu' : UniformFrames s T inputs' := by
    intro y hy
    obtain ⟨k, hk, rfl⟩ := List.getElem_of_mem hy
    obtain ⟨-, hg⟩ := forall2_getElem h
    rw [← (hg k (by omega) hk).1]
    exact hu _ (List.getElem_mem _)
  obtain ⟨r, h1, h2, h3⟩ := C61_stack_last_n n s T inputs hne hu
  obtain ⟨r', h1', h2', h3'⟩ := C61_stack_last_n n s T inputs' hne' hu'
  unfold latentEncoder
  rw [h1, h1', Except.bind_ok, Except.bind_ok]
  refine hext _ _ _ ⟨by rw [h2, h2', hl], fun i hi => ?_⟩
  have hi' := hi (Fin.last d)
  rw [h2, Fin.snoc_last] at hi'
  set m := keptFrames n T with hm
  have hm0 : 0 < m := by
    rcases Nat.eq_zero_or_pos m with h0 | h0
    · rw [h0] at hi'; simp at hi'; omega
    · exact h0
  have hmn : m ≤ n ∧ m ≤ T := by rw [hm]; unfold keptFrames; rw [if_neg (by omega)]; exact ⟨min_le_left _ _, min_le_right _ _⟩
  obtain ⟨q, hq⟩ := Int.eq_ofNat_of_zero_le hi'.1
  have hq2 : q < inputs.length * m := by rw [hq] at hi'; exact_mod_cast hi'.2
  have hk : q / m < inputs.length := Nat.div_lt_of_lt_mul (by rwa [Nat.mul_comm])
  have ht : q % m < m := Nat.mod_lt _ hm0
  have hi2 : i = Fin.snoc (α := fun _ => ℤ) (fun b => i b.castSucc) (((q / m : ℕ) : ℤ) * m + (q % m : ℕ)) := by
    funext b
    refine Fin.lastCases ?_ (fun b => ?_) b
    · rw [Fin.snoc_last, hq]
      have := Nat.div_add_mod q m
      have e : ((m * (q / m) + q % m : ℕ) : ℤ) = q := by rw [this]
      push_cast at e ⊢
      linarith
    · rw [Fin.snoc_castSucc]
  rw [hi2, h3 _ hk _ ht, h3' _ (by omega) _ ht]
  obtain ⟨-, hg⟩ := forall2_getElem h
  refine (hg (q / m) hk (by omega)).2 _ _ ?_ ?_
  · rw [hu _ (List.getElem_mem hk), Fin.cons_zero]; omega
  · omega


/-! ## Spectral encoders -/

/-- Half spectra that belong to real fields on the grid. -/
def HalfSpectrum (g : Grid 2 ℝ) (z : NArr 2 ℂ) : Prop :=
  z.shape = rfftShape2 g ∧ ∃ y : Idx 2 → ℂ, HSym g.shape Finset.univ y ∧ ∀ i : Idx 2, InR z.shape i → z.data i = y i

theorem rfftShape2_eq (g : Grid 2 ℝ) : rfftShape2 g = Function.update g.shape (Fin.last 1) (g.shape (Fin.last 1) / 2 + 1) := by
  funext b
  fin_cases b <;> rfl

theorem rfftn_grid_shape {g : Grid 2 ℝ} {u : NArr 2 ℝ} (hu : u.shape = g.shape) : (rfftn (k := 1) u).shape = rfftShape2 g := by
  rw [rfftShape2_eq, ← hu]; rfl

theorem half_mem {g : Grid 2 ℝ} {i : Idx 2} : InR (rfftShape2 g) i ↔ (0 ≤ i 0 ∧ i 0 < g.shape 0) ∧ 0 ≤ i 1 ∧ i 1 ≤ (g.shape 1 / 2 : ℕ) := by
  unfold InR rfftShape2
  rw [Fin.forall_fin_two]
  simp only [Matrix.cons_val_zero, Matrix.cons_val_one]
  constructor
  · rintro ⟨h1, h2⟩; exact ⟨h1, h2.1, by push_cast at h2 ⊢; omega⟩
  · rintro ⟨h1, h2⟩; exact ⟨h1, h2.1, by push_cast at h2 ⊢; omega⟩

theorem HalfSpectrum.rfftn {g : Grid 2 ℝ} {u : NArr 2 ℝ} (hu : u.shape = g.shape) : HalfSpectrum g (rfftn (k := 1) u) :=
  ⟨rfftn_grid_shape hu, _, hu ▸ hsym_fft u.shape u.data, fun _ _ => rfl⟩

/-- Inverse transforms of half spectra are real fields with that spectrum. -/
theorem HalfSpectrum.field {g : Grid 2 ℝ} (he : g.shape 1 % 2 = 0) (h0 : g.shape 1 ≠ 0) {z : NArr 2 ℂ} (h : HalfSpectrum g z) :
    (irfftn (k := 1) z).shape = g.shape ∧ (JaxCfd.rfftn (k := 1) (irfftn (k := 1) z)).Eqv z := by
  obtain ⟨hs, y, hy, hz⟩ := h
  rw [rfftShape2_eq] at hs
  exact ⟨(irfftn_hermitian (k := 1) g.shape hy he z hs hz).1, rfftn_irfftn (k := 1) g.shape hy he h0 z hs hz⟩

/-- A spectrum that agrees with that of a real field gives the field. -/
theorem irfftn_recover {g : Grid 2 ℝ} (he : g.shape 1 % 2 = 0) {u : NArr 2 ℝ} (hu : u.shape = g.shape) {z : NArr 2 ℂ} (hs : z.shape = rfftShape2 g)
    (hz : ∀ i : Idx 2, InR (rfftShape2 g) i → z.data i = (rfftn (k := 1) u).data i) : (irfftn (k := 1) z).Eqv u := by
  have hs' := hs
  rw [rfftShape2_eq, ← hu] at hs'
  obtain ⟨h1, h2⟩ := irfftn_hermitian (k := 1) u.shape (hsym_fft u.shape u.data) (by rw [hu]; exact he) z hs' (fun i hi => by
    rw [hs] at hi; rw [hz i hi]; rfl)
  refine ⟨h1, fun i hi => ?_⟩
  rw [h1] at hi
  have h3 := h2 i hi
  rw [axesOp_inverse (fft_inverse u.shape) _ (List.nodup_finRange _) _ i hi] at h3
  exact_mod_cast h3

theorem centred_unique {n : ℕ} {k m : ℤ} (h : (n : ℤ) ∣ m - k) (h1 : -((n / 2 : ℕ) : ℤ) ≤ m) (h2 : m < n - (n / 2 : ℕ)) : centred n k = m := by
  obtain ⟨t, ht⟩ := h
  unfold centred
  have e : k + (n / 2 : ℕ) = (m + (n / 2 : ℕ)) - n * t := by linarith
  rw [e, Int.sub_mul_emod_self_left, Int.emod_eq_of_lt (by omega) (by omega)]
  ring

theorem centred_dvd {n : ℕ} (k : ℤ) : (n : ℤ) ∣ centred n k - k :=
  Int.modEq_iff_dvd.1 (show k % n = centred n k % n from (centred_emod k).symm)

theorem centred_add {n : ℕ} (hn : n ≠ 0) (k : ℤ) : centred n (k + n) = centred n k := by
  have h := centred_bounds hn k
  refine centred_unique ?_ h.1 h.2
  obtain ⟨t, ht⟩ := centred_dvd (n := n) k
  exact ⟨t - 1, by linear_combination ht⟩

theorem centred_neg {n : ℕ} (hn : n ≠ 0) (k : ℤ) (h : 2 * centred n k ≠ -(n : ℤ)) : centred n (-k) = -centred n k := by
  have hb := centred_bounds hn k
  refine centred_unique ?_ (by omega) (by omega)
  obtain ⟨t, ht⟩ := centred_dvd (n := n) k
  exact ⟨-t, by linear_combination -ht⟩

theorem centred_neg_nyquist {n : ℕ} (hn : n ≠ 0) (k : ℤ) (h : 2 * centred n k = -(n : ℤ)) : 2 * centred n (-k) = -(n : ℤ) := by
  have : centred n (-k) = centred n k := by
    have hb := centred_bounds hn k
    refine centred_unique ?_ hb.1 hb.2
    obtain ⟨t, ht⟩ := centred_dvd (n := n) k
    exact ⟨-t - 1, by linear_combination -ht + h⟩
  rw [this, h]

/-- A Fourier multiplier that maps real fields to real fields, switched off at the Nyquist frequencies. -/
noncomputable def multiplier (s : Fin 2 → ℕ) (f : ℤ × ℤ → ℂ) (k : Idx 2) : ℂ :=
  if 2 * centred (s 0) (k 0) = -(s 0 : ℤ) ∨ 2 * centred (s 1) (k 1) = -(s 1 : ℤ) then 0 else f (centred (s 0) (k 0), centred (s 1) (k 1))

theorem multiplier_HSym {s : Fin 2 → ℕ} (hs : ∀ a, s a ≠ 0) {f : ℤ × ℤ → ℂ} (hf : ∀ p, f (-p) = (starRingEnd ℂ) (f p)) :
    HSym s Finset.univ (multiplier s f) := by
  have hneg : ∀ (a : Fin 2) (k : ℤ), (2 * centred (s a) (-k) = -(s a : ℤ)) ↔ 2 * centred (s a) k = -(s a : ℤ) := fun a k =>
    ⟨fun h => by have := centred_neg_nyquist (hs a) _ h; rwa [neg_neg] at this, fun h => centred_neg_nyquist (hs a) _ h⟩
  constructor
  · intro k
    have e0 : negOn Finset.univ k 0 = -k 0 := by simp [negOn]
    have e1 : negOn Finset.univ k 1 = -k 1 := by simp [negOn]
    unfold multiplier
    rw [e0, e1]
    simp only [hneg]
    split_ifs with h
    · simp
    · push Not at h
      rw [centred_neg (hs 0) _ h.1, centred_neg (hs 1) _ h.2, ← hf]
      rfl
  · intro a _ k
    unfold multiplier
    fin_cases a
    · simp only [Fin.zero_eta, Function.update_self]
      rw [centred_add (hs 0), Function.update_of_ne (by decide)]
    · simp only [Fin.mk_one, Function.update_self]
      rw [centred_add (hs 1), Function.update_of_ne (by decide)]

theorem _root_.JaxCfd.HSym.add {s : Fin d → ℕ} {t : Finset (Fin d)} {y z : Idx d → ℂ} (h : HSym s t y) (h' : HSym s t z) : HSym s t fun k => y k + z k :=
  ⟨fun k => by dsimp only; rw [h.1, h'.1, map_add], fun a ha k => by dsimp only; rw [h.2 a ha, h'.2 a ha]⟩

/-- A field without Nyquist frequencies. -/
def NyquistFree (g : Grid 2 ℝ) (u : NArr 2 ℝ) : Prop :=
  ∀ r c : ℤ, 0 ≤ r → r < g.shape 0 → 0 ≤ c → c ≤ (g.shape 1 / 2 : ℕ) → (2 * r = g.shape 0 ∨ 2 * c = g.shape 1) → (rfftn (k := 1) u).data ![r, c] = 0

theorem eta2 (i : Idx 2) : ![i 0, i 1] = i := by
  funext b
  fin_cases b <;> rfl

theorem NyquistFree.apply {g : Grid 2 ℝ} (hg : g.Proper) (he : g.shape 1 % 2 = 0) {u : NArr 2 ℝ} (hu : NyquistFree g u) (f : ℤ × ℤ → ℂ) {i : Idx 2}
    (hi : InR (rfftShape2 g) i) :
    f (centred (g.shape 0) (i 0), i 1) * (rfftn (k := 1) u).data i = multiplier g.shape f i * (rfftn (k := 1) u).data i := by
  obtain ⟨⟨h1, h2⟩, h3, h4⟩ := half_mem.1 hi
  have hb := centred_bounds (hg 0).1 (i 0)
  have hb1 := centred_bounds (hg 1).1 (i 1)
  have hc : 2 * i 1 ≠ g.shape 1 → centred (g.shape 1) (i 1) = i 1 := fun h => centred_unique (by simp) (by omega) (by omega)
  unfold multiplier
  split_ifs with h
  · rw [zero_mul]
    have : (rfftn (k := 1) u).data ![i 0, i 1] = 0 := by
      refine hu (i 0) (i 1) h1 h2 h3 h4 ?_
      rcases h with h | h
      · left
        obtain ⟨t, ht⟩ := centred_dvd (n := g.shape 0) (i 0)
        have hp : (0 : ℤ) < g.shape 0 := by have := (hg 0).1; omega
        have e : 2 * i 0 = g.shape 0 * (-1 - 2 * t) := by linear_combination h - 2 * ht
        have : -1 - 2 * t = 1 := by
          have h5 : 0 ≤ -1 - 2 * t := by by_contra hc; nlinarith
          have h6 : -1 - 2 * t < 2 := by by_contra hc; nlinarith
          omega
        rw [e, this, mul_one]
      · right
        by_contra hne
        rw [hc hne] at h
        have := (hg 1).1
        omega
    rw [eta2] at this
    rw [this, mul_zero]
  · push Not at h
    by_cases h5 : 2 * i 1 = g.shape 1
    · exact absurd (by
        have : centred (g.shape 1) (i 1) = -((g.shape 1 / 2 : ℕ) : ℤ) := centred_unique ⟨-1, by omega⟩ (by omega) (by have := (hg 1).1; omega)
        rw [this]; omega) h.2
    · rw [hc h5]

/-- The half spectrum of a multiplier applied to a real field without Nyquist frequencies. -/
theorem NyquistFree.half {g : Grid 2 ℝ} (hg : g.Proper) (he : g.shape 1 % 2 = 0) {u : NArr 2 ℝ} (hs : u.shape = g.shape) (hu : NyquistFree g u)
    {f : ℤ × ℤ → ℂ} (hf : ∀ p, f (-p) = (starRingEnd ℂ) (f p)) {z : NArr 2 ℂ} (hz : z.shape = rfftShape2 g)
    (h : ∀ i : Idx 2, InR (rfftShape2 g) i → z.data i = f (centred (g.shape 0) (i 0), i 1) * (rfftn (k := 1) u).data i) : HalfSpectrum g z := by
  refine ⟨hz, _, (multiplier_HSym (fun a => (hg a).1) hf).mul (hs ▸ hsym_fft u.shape u.data), fun i hi => ?_⟩
  rw [hz] at hi
  rw [h i hi, hu.apply hg he f hi, rfftn_data, hs]


theorem rfftn_mean (u : NArr 2 ℝ) : (rfftn (k := 1) u).data 0 = ((∑ i ∈ box u.shape, u.data i : ℝ) : ℂ) := by
  have h := fftn_zero (⟨u.shape, fun i => (u.data i : ℂ)⟩ : NArr 2 ℂ)
  rw [fftn_eq] at h
  rw [rfftn_data]
  push_cast
  exact h

theorem zero2 : (![0, 0] : Idx 2) = 0 := by
  funext b
  fin_cases b <;> rfl

theorem lastPair_ok {U V : NArr 3 ℝ} (hf : HasFrames [U, V]) : lastPair [U, V] = .ok (lastFrame U, lastFrame V) := by
  unfold lastPair
  dsimp only
  rw [sliceLast_ok (hf U (by simp)), sliceLast_ok (hf V (by simp))]
  rfl

/-- The vorticity spectrum of a velocity on the grid. -/
noncomputable def curlSpectrum (g : Grid 2 ℝ) (u v : NArr 2 ℝ) : NArr 2 ℂ :=
  ⟨rfftShape2 g, fun i => spectralCurl2d g (fun r c => ((rfftn (k := 1) u).data ![r, c], (rfftn (k := 1) v).data ![r, c])) (i 0) (i 1)⟩

theorem vorticityHat_ok {g : Grid 2 ℝ} {u v : NArr 2 ℝ} (hu : u.shape = g.shape) (hv : v.shape = g.shape) :
    vorticityHat g u v = .ok (curlSpectrum g u v) := by
  unfold vorticityHat
  rw [if_pos ⟨rfftn_grid_shape hu, rfftn_grid_shape hv⟩]
  rfl

/-- The velocity is divergence free mode by mode (`kx û + ky v̂ = 0`). -/
def SpectrallySolenoidal (g : Grid 2 ℝ) (u v : NArr 2 ℝ) : Prop :=
  ∀ r c : ℤ, 0 ≤ r → r < g.shape 0 → 0 ≤ c → c ≤ (g.shape 1 / 2 : ℕ) →
      ((rfftMesh g r c).1 : ℂ) * (rfftn (k := 1) u).data ![r, c] + ((rfftMesh g r c).2 : ℂ) * (rfftn (k := 1) v).data ![r, c] = 0

theorem v2v_curl {g : Grid 2 ℝ} (hg : g.Proper) {u v : NArr 2 ℝ} (hu : u.shape = g.shape) (hv : v.shape = g.shape)
    (hmean : ∑ i ∈ box g.shape, u.data i = 0 ∧ ∑ i ∈ box g.shape, v.data i = 0) (hdiv : SpectrallySolenoidal g u v) {i : Idx 2}
    (hi : InR (rfftShape2 g) i) :
    vorticityToVelocity g (fun r c => (curlSpectrum g u v).data ![r, c]) (i 0) (i 1) = ((rfftn (k := 1) u).data i, (rfftn (k := 1) v).data i) := by
  obtain ⟨⟨h1, h2⟩, h3, h4⟩ := half_mem.1 hi
  have hloc : ∀ (w w' : ℤ → ℤ → ℂ) (r c : ℤ), w r c = w' r c → vorticityToVelocity g w r c = vorticityToVelocity g w' r c := fun w w' r c h => by
    unfold vorticityToVelocity; rw [h]
  let v' : ℤ → ℤ → ℂ × ℂ := fun r c => if r = i 0 ∧ c = i 1 then ((rfftn (k := 1) u).data i, (rfftn (k := 1) v).data i) else (0, 0)
  have e : v' (i 0) (i 1) = ((rfftn (k := 1) u).data i, (rfftn (k := 1) v).data i) := if_pos ⟨rfl, rfl⟩
  rw [hloc _ (spectralCurl2d g v') (i 0) (i 1) ?_, C47_left_inverse g hg v' ?_ ?_ (i 0) (i 1) h1 h2, e]
  · by_cases h : (0 : ℤ) = i 0 ∧ (0 : ℤ) = i 1
    · have hi0 : i = 0 := by
        rw [← eta2 i, ← h.1, ← h.2, zero2]
      show (if _ then _ else _) = _
      rw [if_pos h, hi0, rfftn_mean, rfftn_mean, hu, hv, hmean.1, hmean.2, Complex.ofReal_zero]
    · exact if_neg h
  · intro r c
    by_cases h : r = i 0 ∧ c = i 1
    · obtain ⟨rfl, rfl⟩ := h
      rw [e]
      have := hdiv (i 0) (i 1) h1 h2 h3 h4
      rwa [eta2] at this
    · have : v' r c = (0, 0) := if_neg h
      rw [this]; simp
  · unfold curlSpectrum spectralCurl2d
    dsimp only
    simp only [Matrix.cons_val_zero, Matrix.cons_val_one]
    rw [e, eta2]

/-- **C61.** `spectral_vorticity_decoder` undoes `spectral_vorticity_encoder`: for every grid with an even last axis and every trajectory whose
last velocity has zero mean and a divergence-free spectrum, decoding the encoded state gives that velocity. -/
theorem C61_spectral_roundtrip (g : Grid 2 ℝ) (hg : g.Proper) (he : g.shape 1 % 2 = 0) (U V : NArr 3 ℝ) (hf : HasFrames [U, V])
    (hU : (lastFrame U).shape = g.shape) (hV : (lastFrame V).shape = g.shape)
    (hmean : ∑ i ∈ box g.shape, (lastFrame U).data i = 0 ∧ ∑ i ∈ box g.shape, (lastFrame V).data i = 0)
    (hdiv : SpectrallySolenoidal g (lastFrame U) (lastFrame V)) :
    ∃ w p, spectralVorticityEncoder g [U, V] = .ok w ∧ spectralVorticityDecoder g w = .ok p ∧ p.1.Eqv (lastFrame U) ∧ p.2.Eqv (lastFrame V) := by
  refine ⟨curlSpectrum g (lastFrame U) (lastFrame V), _, ?_, if_pos rfl, ?_, ?_⟩
  · unfold spectralVorticityEncoder
    rw [lastPair_ok hf]
    exact vorticityHat_ok hU hV
  · refine irfftn_recover he hU rfl fun i hi => ?_
    dsimp only
    rw [v2v_curl hg hU hV hmean hdiv hi]
  · refine irfftn_recover he hV rfl fun i hi => ?_
    dsimp only
    rw [v2v_curl hg hU hV hmean hdiv hi]

/-- The curl spectrum of a velocity without Nyquist frequencies belongs to a real field. -/
theorem curl_half {g : Grid 2 ℝ} (hg : g.Proper) (he : g.shape 1 % 2 = 0) {u v : NArr 2 ℝ} (hu : u.shape = g.shape) (hv : v.shape = g.shape)
    (hun : NyquistFree g u) (hvn : NyquistFree g v) : HalfSpectrum g (curlSpectrum g u v) := by
  refine ⟨rfl, _, HSym.add (HSym.mul (multiplier_HSym (f := fun p => Complex.I * waveX g p) (fun a => (hg a).1) (mulX_conj g)) (hv ▸ hsym_fft v.shape v.data))
    (HSym.mul (multiplier_HSym (f := fun p => -(Complex.I * waveY g p)) (fun a => (hg a).1) (fun p => by rw [mulY_conj, map_neg])) (hu ▸ hsym_fft u.shape u.data)),
    fun i hi => ?_⟩
  have hi' : InR (rfftShape2 g) i := hi
  obtain ⟨⟨h1, h2⟩, h3, h4⟩ := half_mem.1 hi'
  have e1 := hvn.apply hg he (fun p => Complex.I * waveX g p) hi'
  have e2 := hun.apply hg he (fun p => -(Complex.I * waveY g p)) hi'
  rw [rfftn_data, hv] at e1
  rw [rfftn_data, hu] at e2
  rw [← e1, ← e2]
  unfold curlSpectrum spectralCurl2d
  dsimp only
  rw [eta2, rfftn_data, rfftn_data, hu, hv, ← deriv_x hg _ _ h1 h2, ← deriv_y hg]
  ring

theorem stack_one (x : NArr 2 ℝ) : ∃ w, stackLast [x] = .ok w := by
  unfold stackLast
  dsimp only
  rw [if_pos (by simp)]
  exact ⟨_, rfl⟩

theorem squeeze_stack (x : NArr 2 ℝ) {w : NArr 3 ℝ} (h : stackLast [x] = .ok w) :
    w.shape (Fin.last 2) = 1 ∧ (⟨fun b => w.shape b.castSucc, fun i => w.data (Fin.snoc (α := fun _ => ℤ) i 0)⟩ : NArr 2 ℝ) = x := by
  unfold stackLast at h
  dsimp only at h
  rw [if_pos (by simp)] at h
  have := Except.ok.inj h
  subst this
  refine ⟨Fin.snoc_last (n := 2) (α := fun _ => ℕ) _ x.shape, ?_⟩
  cases x
  simp

/-- **C61.** The same for `vorticity_encoder` and `vorticity_decoder`, which pass the vorticity as a field with one channel: the roundtrip is the
identity for divergence-free velocities of zero mean without Nyquist frequencies. -/
theorem C61_vorticity_roundtrip (g : Grid 2 ℝ) (hg : g.Proper) (he : g.shape 1 % 2 = 0) (U V : NArr 3 ℝ) (hf : HasFrames [U, V])
    (hU : (lastFrame U).shape = g.shape) (hV : (lastFrame V).shape = g.shape)
    (hmean : ∑ i ∈ box g.shape, (lastFrame U).data i = 0 ∧ ∑ i ∈ box g.shape, (lastFrame V).data i = 0)
    (hdiv : SpectrallySolenoidal g (lastFrame U) (lastFrame V)) (hun : NyquistFree g (lastFrame U)) (hvn : NyquistFree g (lastFrame V)) :
    ∃ w p, vorticityEncoder g [U, V] = .ok w ∧ (∀ a : Fin 2, w.shape a.castSucc = g.shape a) ∧ w.shape (Fin.last 2) = 1 ∧
      vorticityDecoder g w = .ok p ∧ p.1.Eqv (lastFrame U) ∧ p.2.Eqv (lastFrame V) := by
  have hh := (curl_half hg he hU hV hun hvn).field he (hg 1).1
  obtain ⟨w, hw⟩ : ∃ w, stackLast [irfftn (k := 1) (curlSpectrum g (lastFrame U) (lastFrame V))] = .ok w := stack_one _
  obtain ⟨hw1, hw2⟩ := squeeze_stack _ hw
  have hsh : ∀ a : Fin 2, w.shape a.castSucc = g.shape a := fun a => by
    have := congrArg (fun y : NArr 2 ℝ => y.shape a) hw2
    dsimp only at this
    rw [this, hh.1]
  have hrs : (rfftn (k := 1) (irfftn (k := 1) (curlSpectrum g (lastFrame U) (lastFrame V)))).shape = rfftShape2 g := rfftn_grid_shape hh.1
  have hrd : ∀ i : Idx 2, InR (rfftShape2 g) i →
      (rfftn (k := 1) (irfftn (k := 1) (curlSpectrum g (lastFrame U) (lastFrame V)))).data i = (curlSpectrum g (lastFrame U) (lastFrame V)).data i :=
    fun i hi => hh.2.2 i (by rw [hrs]; exact hi)
  have hloc : ∀ (w w' : ℤ → ℤ → ℂ) (r c : ℤ), w r c = w' r c → vorticityToVelocity g w r c = vorticityToVelocity g w' r c := fun w w' r c h => by
    unfold vorticityToVelocity; rw [h]
  have hv2 : ∀ i : Idx 2, InR (rfftShape2 g) i →
      vorticityToVelocity g (fun r c => (rfftn (k := 1) (irfftn (k := 1) (curlSpectrum g (lastFrame U) (lastFrame V)))).data ![r, c]) (i 0) (i 1) =
        ((rfftn (k := 1) (lastFrame U)).data i, (rfftn (k := 1) (lastFrame V)).data i) := fun i hi => by
    rw [← v2v_curl hg hU hV hmean hdiv hi]
    refine hloc _ _ _ _ ?_
    show (rfftn (k := 1) _).data ![i 0, i 1] = (curlSpectrum _ _ _).data ![i 0, i 1]
    rw [eta2, hrd i hi]
  have hdec : ∃ p, vorticityDecoder g w = .ok p ∧ p = (irfftn (k := 1) ⟨(rfftn (k := 1) (irfftn (k := 1) (curlSpectrum g (lastFrame U) (lastFrame V)))).shape, fun i =>
      (vorticityToVelocity g (fun r c => (rfftn (k := 1) (irfftn (k := 1) (curlSpectrum g (lastFrame U) (lastFrame V)))).data ![r, c]) (i 0) (i 1)).1⟩,
      irfftn (k := 1) ⟨(rfftn (k := 1) (irfftn (k := 1) (curlSpectrum g (lastFrame U) (lastFrame V)))).shape, fun i =>
      (vorticityToVelocity g (fun r c => (rfftn (k := 1) (irfftn (k := 1) (curlSpectrum g (lastFrame U) (lastFrame V)))).data ![r, c]) (i 0) (i 1)).2⟩) := by
    unfold vorticityDecoder
    rw [if_pos hw1, hw2]
    exact ⟨_, if_pos hrs, rfl⟩
  obtain ⟨p, hp, hp'⟩ := hdec
  refine ⟨w, p, ?_, hsh, hw1, hp, ?_, ?_⟩
  · unfold vorticityEncoder
    rw [lastPair_ok hf]
    show (vorticityHat g (lastFrame U) (lastFrame V) >>= _) = _
    rw [vorticityHat_ok hU hV]
    exact hw
  · rw [hp']
    refine irfftn_recover he hU hrs fun i hi => ?_
    dsimp only
    rw [hv2 i hi]
  · rw [hp']
    refine irfftn_recover he hV hrs fun i hi => ?_
    dsimp only
    rw [hv2 i hi]

theorem decoder_field (g : Grid 2 ℝ) (hg : g.Proper) (he : g.shape 1 % 2 = 0) (ω : NArr 2 ℝ) (hω : ω.shape = g.shape) (hn : NyquistFree g ω) :
    ∃ p, spectralVorticityDecoder g (rfftn (k := 1) ω) = .ok p ∧ (p.1.shape = g.shape ∧ p.2.shape = g.shape) ∧ (∀ i : Idx 2, InR (rfftShape2 g) i →
        (rfftn (k := 1) p.1).data i = (vorticityToVelocity g (fun r c => (rfftn (k := 1) ω).data ![r, c]) (i 0) (i 1)).1) ∧
      ∀ i : Idx 2, InR (rfftShape2 g) i →
        (rfftn (k := 1) p.2).data i = (vorticityToVelocity g (fun r c => (rfftn (k := 1) ω).data ![r, c]) (i 0) (i 1)).2 := by
  have hs := rfftn_grid_shape hω
  have hcu : ∀ i : Idx 2, InR (rfftShape2 g) i → vorticityToVelocity g (fun r c => (rfftn (k := 1) ω).data ![r, c]) (i 0) (i 1) =
      ((Complex.I * waveY g (centred (g.shape 0) (i 0), i 1) / ((waveX g (centred (g.shape 0) (i 0), i 1) ^ 2 + waveY g (centred (g.shape 0) (i 0), i 1) ^ 2 : ℝ) : ℂ)) * (rfftn (k := 1) ω).data i,
       (-(Complex.I * waveX g (centred (g.shape 0) (i 0), i 1)) / ((waveX g (centred (g.shape 0) (i 0), i 1) ^ 2 + waveY g (centred (g.shape 0) (i 0), i 1) ^ 2 : ℝ) : ℂ)) * (rfftn (k := 1) ω).data i) := by
    intro i hi
    obtain ⟨⟨h1, h2⟩, -⟩ := half_mem.1 hi
    rw [v2v_coef hg _ (fun _ => (rfftn (k := 1) ω).data i) _ _ h1 h2 (by rw [eta2])]
    unfold velXCoef velYCoef streamCoef
    ext1 <;> dsimp only <;> ring
  have hU := (hn.half hg he hω (f := fun p => Complex.I * waveY g p / ((waveX g p ^ 2 + waveY g p ^ 2 : ℝ) : ℂ))
    (fun p => by rw [mulY_conj, waveX_neg, waveY_neg, neg_sq, neg_sq, map_div₀, Complex.conj_ofReal])
    (z := ⟨(rfftn (k := 1) ω).shape, fun i => (vorticityToVelocity g (fun r c => (rfftn (k := 1) ω).data ![r, c]) (i 0) (i 1)).1⟩) hs
    (fun i hi => by show Prod.fst _ = _; rw [hcu i hi])).field he (hg 1).1
  have hV := (hn.half hg he hω (f := fun p => -(Complex.I * waveX g p) / ((waveX g p ^ 2 + waveY g p ^ 2 : ℝ) : ℂ))
    (fun p => by rw [mulX_conj, waveX_neg, waveY_neg, neg_sq, neg_sq, map_div₀, Complex.conj_ofReal, map_neg])
    (z := ⟨(rfftn (k := 1) ω).shape, fun i => (vorticityToVelocity g (fun r c => (rfftn (k := 1) ω).data ![r, c]) (i 0) (i 1)).2⟩) hs
    (fun i hi => by show Prod.snd _ = _; rw [hcu i hi])).field he (hg 1).1
  exact ⟨_, if_pos hs, ⟨hU.1, hV.1⟩, fun i hi => hU.2.2 i (by rw [rfftn_grid_shape hU.1]; exact hi),
    fun i hi => hV.2.2 i (by rw [rfftn_grid_shape hV.1]; exact hi)⟩

theorem decoder_spectrum (g : Grid 2 ℝ) (hg : g.Proper) (he : g.shape 1 % 2 = 0) (ω : NArr 2 ℝ) (hω : ω.shape = g.shape) (hn : NyquistFree g ω)
    (p : NArr 2 ℝ × NArr 2 ℝ) (hp : spectralVorticityDecoder g (rfftn (k := 1) ω) = .ok p) : (∀ i : Idx 2, InR (rfftShape2 g) i →
        (rfftn (k := 1) p.1).data i = (vorticityToVelocity g (fun r c => (rfftn (k := 1) ω).data ![r, c]) (i 0) (i 1)).1) ∧
      ∀ i : Idx 2, InR (rfftShape2 g) i →
        (rfftn (k := 1) p.2).data i = (vorticityToVelocity g (fun r c => (rfftn (k := 1) ω).data ![r, c]) (i 0) (i 1)).2 := by
  obtain ⟨q, hq, -, h⟩ := decoder_field g hg he ω hω hn
  rw [← Except.ok.inj (hq.symm.trans hp)]
  exact h

/-- **C61.** Encoding a decoded spectral state: for the spectrum `ω̂` of every real field without Nyquist frequencies, `spectral_vorticity_decoder`
gives real velocity fields on the grid, and `spectral_vorticity_encoder` of every trajectory that ends with that velocity gives `ω̂` back, except that
the mean is lost. -/
theorem C61_spectral_encode_decode (g : Grid 2 ℝ) (hg : g.Proper) (he : g.shape 1 % 2 = 0) (ω : NArr 2 ℝ) (hω : ω.shape = g.shape) (hn : NyquistFree g ω) :
    ∃ p, spectralVorticityDecoder g (rfftn (k := 1) ω) = .ok p ∧ p.1.shape = g.shape ∧ p.2.shape = g.shape ∧
      ∀ U V : NArr 3 ℝ, HasFrames [U, V] → lastFrame U = p.1 → lastFrame V = p.2 →
        ∃ w, spectralVorticityEncoder g [U, V] = .ok w ∧ w.shape = rfftShape2 g ∧
          ∀ i : Idx 2, InR w.shape i → w.data i = if i = 0 then 0 else (rfftn (k := 1) ω).data i := by
  obtain ⟨p, hp, ⟨hp1, hp2⟩, hd1, hd2⟩ := decoder_field g hg he ω hω hn
  refine ⟨p, hp, hp1, hp2, fun U V hf eU eV => ?_⟩
  refine ⟨curlSpectrum g (lastFrame U) (lastFrame V), ?_, rfl, fun i hi => ?_⟩
  · unfold spectralVorticityEncoder
    rw [lastPair_ok hf]
    exact vorticityHat_ok (eU ▸ hp1) (eV ▸ hp2)
  · have hi' : InR (rfftShape2 g) i := hi
    obtain ⟨⟨h1, h2⟩, -⟩ := half_mem.1 hi'
    have e1 := hd1 i hi'
    have e2 := hd2 i hi'
    have hc := C47_curl g hg (fun r c => (rfftn (k := 1) ω).data ![r, c]) (i 0) (i 1) h1 h2
    have hz : (i 0 = 0 ∧ i 1 = 0) ↔ i = 0 := ⟨fun h => by rw [← eta2 i, h.1, h.2, zero2], fun h => by rw [h]; exact ⟨rfl, rfl⟩⟩
    simp only [hz] at hc
    rw [eta2] at hc
    rw [← hc]
    unfold curlSpectrum spectralCurl2d
    dsimp only
    rw [eta2, eU, eV, e1, e2]

/-- **C61.** `vorticity_velocity_encoder` returns three channels: the two velocity components of the last frame and the vorticity of
`vorticity_encoder`. -/
theorem C61_vorticity_velocity (g : Grid 2 ℝ) (hg : g.Proper) (he : g.shape 1 % 2 = 0) (U V : NArr 3 ℝ) (hf : HasFrames [U, V])
    (hU : (lastFrame U).shape = g.shape) (hV : (lastFrame V).shape = g.shape) :
    ∃ w x, vorticityEncoder g [U, V] = .ok w ∧ vorticityVelocityEncoder g [U, V] = .ok x ∧
      x.shape = Fin.snoc (α := fun _ => ℕ) g.shape 3 ∧
      ∀ i : Idx 2, x.data (Fin.snoc (α := fun _ => ℤ) i 0) = (lastFrame U).data i ∧ x.data (Fin.snoc (α := fun _ => ℤ) i 1) = (lastFrame V).data i ∧
        x.data (Fin.snoc (α := fun _ => ℤ) i 2) = w.data (Fin.snoc (α := fun _ => ℤ) i 0) := by
  have hsh : (irfftn (k := 1) (curlSpectrum g (lastFrame U) (lastFrame V))).shape = g.shape := by
    funext a
    have e : (irfftn (k := 1) (curlSpectrum g (lastFrame U) (lastFrame V))).shape =
      Function.update (rfftShape2 g) (Fin.last 1) (2 * (rfftShape2 g (Fin.last 1) - 1)) := rfl
    rw [e]
    fin_cases a
    · rfl
    · show 2 * (g.shape 1 / 2 + 1 - 1) = g.shape 1
      omega
  obtain ⟨w, hw⟩ : ∃ w, stackLast [irfftn (k := 1) (curlSpectrum g (lastFrame U) (lastFrame V))] = .ok w := stack_one _
  obtain ⟨x, hx, hx1, hx2⟩ : ∃ x, stackLast [lastFrame U, lastFrame V, irfftn (k := 1) (curlSpectrum g (lastFrame U) (lastFrame V))] = .ok x ∧
      x.shape = Fin.snoc (α := fun _ => ℕ) (lastFrame U).shape 3 ∧ x.data = fun i => ((([lastFrame U, lastFrame V,
        irfftn (k := 1) (curlSpectrum g (lastFrame U) (lastFrame V))])[(i (Fin.last 2)).toNat]?).getD (lastFrame U)).data fun b => i b.castSucc := by
    unfold stackLast
    dsimp only
    rw [if_pos (by simp [hU, hV, hsh])]
    exact ⟨_, rfl, rfl, rfl⟩
  refine ⟨w, x, ?_, ?_, ?_, fun i => ?_⟩
  · unfold vorticityEncoder
    rw [lastPair_ok hf]
    show (vorticityHat g (lastFrame U) (lastFrame V) >>= _) = _
    rw [vorticityHat_ok hU hV]
    exact hw
  · unfold vorticityVelocityEncoder
    rw [lastPair_ok hf]
    show (vorticityHat g (lastFrame U) (lastFrame V) >>= _) = _
    rw [vorticityHat_ok hU hV]
    exact hx
  · rw [hx1, hU]
  · have hw2 := (squeeze_stack _ hw).2
    have : w.data (Fin.snoc (α := fun _ => ℤ) i 0) = (irfftn (k := 1) (curlSpectrum g (lastFrame U) (lastFrame V))).data i := by
      have := congrArg (fun y : NArr 2 ℝ => y.data i) hw2
      exact this
    rw [this]
    have e : ∀ z : ℤ, x.data (Fin.snoc (α := fun _ => ℤ) i z) = ((([lastFrame U, lastFrame V,
        irfftn (k := 1) (curlSpectrum g (lastFrame U) (lastFrame V))])[z.toNat]?).getD (lastFrame U)).data i := fun z => by
      rw [hx2]
      dsimp only
      rw [Fin.snoc_last (n := 2) (α := fun _ => ℤ) z i]
      simp only [Fin.snoc_castSucc (n := 2) (α := fun _ => ℤ)]
    exact ⟨e 0, e 1, e 2⟩

/-- **C61.** On a grid whose last axis is odd, `vorticity_encoder` succeeds but returns a field with one point less along that axis, which
`vorticity_decoder` then refuses or reads as a field of another grid. -/
theorem C61_odd_axis_defect (g : Grid 2 ℝ) (ho : g.shape 1 % 2 = 1) (U V : NArr 3 ℝ) (hf : HasFrames [U, V])
    (hU : (lastFrame U).shape = g.shape) (hV : (lastFrame V).shape = g.shape) :
    ∃ w, vorticityEncoder g [U, V] = .ok w ∧ w.shape 1 + 1 = g.shape 1 := by
  obtain ⟨w, hw⟩ : ∃ w, stackLast [irfftn (k := 1) (curlSpectrum g (lastFrame U) (lastFrame V))] = .ok w := stack_one _
  refine ⟨w, ?_, ?_⟩
  · unfold vorticityEncoder
    rw [lastPair_ok hf]
    show (vorticityHat g (lastFrame U) (lastFrame V) >>= _) = _
    rw [vorticityHat_ok hU hV]
    exact hw
  · have := congrArg (fun y : NArr 2 ℝ => y.shape 1) (squeeze_stack _ hw).2
    have e : w.shape 1 = 2 * (g.shape 1 / 2 + 1 - 1) := this
    omega

/-- **C61.** The spectral encoders accept exactly two components; the decoder exactly one channel and a state of the grid's half-spectrum shape. -/
theorem C61_spectral_arguments (g : Grid 2 ℝ) (xs : List (NArr 3 ℝ)) (hx : xs.length ≠ 2) :
    spectralVorticityEncoder g xs = .error .value ∧ vorticityEncoder g xs = .error .value ∧ vorticityVelocityEncoder g xs = .error .value ∧
      (∀ w : NArr 3 ℝ, w.shape 2 ≠ 1 → vorticityDecoder g w = .error .value) ∧
      ∀ w : NArr 2 ℂ, w.shape ≠ rfftShape2 g → spectralVorticityDecoder g w = .error .type := by
  have h : lastPair xs = .error .value := by
    match xs, hx with
    | [], _ => rfl
    | [_], _ => rfl
    | [_, _], h => exact absurd rfl h
    | _ :: _ :: _ :: _, _ => rfl
  refine ⟨?_, ?_, ?_, fun w hw => if_neg hw, fun w hw => if_neg hw⟩
  · unfold spectralVorticityEncoder; rw [h]; rfl
  · unfold vorticityEncoder; rw [h]; rfl
  · unfold vorticityVelocityEncoder; rw [h]; rfl

/-- **C61.** The velocity that `spectral_vorticity_decoder` computes from the spectrum of a real field without Nyquist frequencies is divergence free,
has zero mean and has no Nyquist frequencies: it can be encoded and decoded again without loss. -/
theorem C61_decoder_solenoidal (g : Grid 2 ℝ) (hg : g.Proper) (he : g.shape 1 % 2 = 0) (ω : NArr 2 ℝ) (hω : ω.shape = g.shape) (hn : NyquistFree g ω)
    (p : NArr 2 ℝ × NArr 2 ℝ) (hp : spectralVorticityDecoder g (rfftn (k := 1) ω) = .ok p) :
    SpectrallySolenoidal g p.1 p.2 ∧ (∑ i ∈ box g.shape, p.1.data i = 0 ∧ ∑ i ∈ box g.shape, p.2.data i = 0) ∧
      NyquistFree g p.1 ∧ NyquistFree g p.2 := by
  have hs := rfftn_grid_shape hω
  obtain ⟨q, hq, hq1, hq2, -⟩ := C61_spectral_encode_decode g hg he ω hω hn
  have hpq : q = p := Except.ok.inj (hq.symm.trans hp)
  subst hpq
  obtain ⟨hd1, hd2⟩ := decoder_spectrum g hg he ω hω hn q hq
  have hdata : ∀ i : Idx 2, InR (rfftShape2 g) i → ((rfftn (k := 1) q.1).data i, (rfftn (k := 1) q.2).data i) =
      vorticityToVelocity g (fun r c => (rfftn (k := 1) ω).data ![r, c]) (i 0) (i 1) := fun i hi => Prod.ext (hd1 i hi) (hd2 i hi)
  have hmem : ∀ r c : ℤ, 0 ≤ r → r < g.shape 0 → 0 ≤ c → c ≤ (g.shape 1 / 2 : ℕ) → InR (rfftShape2 g) ![r, c] := fun r c h1 h2 h3 h4 =>
    half_mem.2 ⟨⟨h1, h2⟩, h3, h4⟩
  have hpos0 := (hg 0).1
  have hpos1 := (hg 1).1
  have hzero : ((rfftn (k := 1) q.1).data 0, (rfftn (k := 1) q.2).data 0) = ((0 : ℂ), (0 : ℂ)) := by
    have h := hdata ![0, 0] (hmem 0 0 le_rfl (by omega) le_rfl (by omega))
    rw [zero2] at h
    rw [h]
    have h1 : (rfftMesh g 0 0).1 = 0 := (fftfreq_eq_zero (hg.step_pos 0) le_rfl (by omega)).2 rfl
    have h2 : (rfftMesh g 0 0).2 = 0 := (rfftfreq_eq_zero (hg.step_pos 1) (hg 1).1).2 rfl
    show vorticityToVelocity g _ 0 0 = _
    unfold vorticityToVelocity
    rw [h1, h2]
    simp
  refine ⟨fun r c h1 h2 h3 h4 => ?_, ⟨?_, ?_⟩, fun r c h1 h2 h3 h4 hny => ?_, fun r c h1 h2 h3 h4 hny => ?_⟩
  · have h := hdata _ (hmem r c h1 h2 h3 h4)
    have e1 := congrArg Prod.fst h
    have e2 := congrArg Prod.snd h
    dsimp only at e1 e2
    rw [e1, e2]
    exact C47_divergence_free g _ r c
  · have := congrArg Prod.fst hzero
    dsimp only at this
    rw [rfftn_mean, hq1] at this
    exact_mod_cast this
  · have := congrArg Prod.snd hzero
    dsimp only at this
    rw [rfftn_mean, hq2] at this
    exact_mod_cast this
  · have e1 := congrArg Prod.fst (hdata _ (hmem r c h1 h2 h3 h4))
    dsimp only at e1
    rw [e1]
    have h0 := hn r c h1 h2 h3 h4 hny
    unfold vorticityToVelocity
    simp [h0]
  · have e1 := congrArg Prod.snd (hdata _ (hmem r c h1 h2 h3 h4))
    dsimp only at e1
    rw [e1]
    have h0 := hn r c h1 h2 h3 h4 hny
    unfold vorticityToVelocity
    simp [h0]

/-- Real fields with a prescribed spectrum. -/
theorem exists_nyquistFree (g : Grid 2 ℝ) (hg : g.Proper) (he : g.shape 1 % 2 = 0) {f : ℤ × ℤ → ℂ} (hf : ∀ p, f (-p) = (starRingEnd ℂ) (f p)) :
    ∃ ω : NArr 2 ℝ, ω.shape = g.shape ∧ NyquistFree g ω ∧ ∀ i : Idx 2, InR (rfftShape2 g) i → (rfftn (k := 1) ω).data i = multiplier g.shape f i := by
  have h : HalfSpectrum g ⟨rfftShape2 g, multiplier g.shape f⟩ := ⟨rfl, _, multiplier_HSym (fun a => (hg a).1) hf, fun _ _ => rfl⟩
  obtain ⟨h1, h2, h3⟩ := h.field he (hg 1).1
  have hd : ∀ i : Idx 2, InR (rfftShape2 g) i → (rfftn (k := 1) (irfftn (k := 1) ⟨rfftShape2 g, multiplier g.shape f⟩)).data i = multiplier g.shape f i :=
    fun i hi => h3 i (by rw [rfftn_grid_shape h1]; exact hi)
  refine ⟨_, h1, fun r c e1 e2 e3 e4 hny => ?_, hd⟩
  rw [hd _ (half_mem.2 ⟨⟨e1, e2⟩, e3, e4⟩)]
  refine if_pos ?_
  simp only [Matrix.cons_val_zero, Matrix.cons_val_one]
  have hp0 := (hg 0).1
  have hp1 := (hg 1).1
  rcases hny with h | h
  · left
    have : centred (g.shape 0) r = r - g.shape 0 := centred_unique ⟨-1, by ring⟩ (by omega) (by omega)
    rw [this]; omega
  · right
    have : centred (g.shape 1) c = c - g.shape 1 := centred_unique ⟨-1, by ring⟩ (by omega) (by omega)
    rw [this]; omega

/-- The 4 × 4 grid on the unit square. -/
noncomputable def unitGrid4 : Grid 2 ℝ := ⟨fun _ => 4, fun _ => (0, 1)⟩

theorem unitGrid4_proper : unitGrid4.Proper := fun _ => ⟨by norm_num [unitGrid4], by norm_num [unitGrid4]⟩

theorem unitGrid4_multiplier (f : ℤ × ℤ → ℂ) : multiplier unitGrid4.shape f ![1, 0] = f (1, 0) := by
  have h9 : centred 4 1 = 1 := by decide
  have h10 : centred 4 0 = 0 := by decide
  have e : unitGrid4.shape = fun _ => 4 := rfl
  rw [e]
  unfold multiplier
  simp only [Matrix.cons_val_zero, Matrix.cons_val_one, h9, h10]
  rw [if_neg (by norm_num)]

theorem rfftn_zero {x : NArr 2 ℝ} (h : ∀ i : Idx 2, InR x.shape i → x.data i = 0) {i : Idx 2} (hi : InR x.shape i) : (rfftn (k := 1) x).data i = 0 := by
  rw [rfftn_data]
  have := axesOp_congr (s := x.shape) (fun a => fftKernel (x.shape a)) (List.finRange 2) (x := fun i => (x.data i : ℂ)) (y := fun _ => 0)
    (fun i hi => by beta_reduce; rw [h i hi, Complex.ofReal_zero]) i hi
  rw [this, axesOp_zero]

/-- A trajectory with one frame. -/
def oneFrame (x : NArr 2 ℝ) : NArr 3 ℝ := ⟨Fin.cons (α := fun _ => ℕ) 1 x.shape, fun i => x.data fun b => i b.succ⟩

theorem lastFrame_oneFrame (x : NArr 2 ℝ) : lastFrame (oneFrame x) = x := by
  cases x
  unfold lastFrame oneFrame
  simp

theorem oneFrame_frames (x y : NArr 2 ℝ) : HasFrames [oneFrame x, oneFrame y] := by
  intro z hz
  rcases List.mem_cons.1 hz with rfl | hz
  · exact Nat.one_pos
  · rw [List.mem_singleton.1 hz]; exact Nat.one_pos

theorem unitGrid4_velocity (ω : NArr 2 ℝ) (h1 : ω.shape = unitGrid4.shape) (h2 : NyquistFree unitGrid4 ω)
    (h5 : (rfftn (k := 1) ω).data ![1, 0] = 1)
    (p : NArr 2 ℝ × NArr 2 ℝ) (hp : spectralVorticityDecoder unitGrid4 (rfftn (k := 1) ω) = .ok p) (hr : (rfftn (k := 1) p.2).data ![1, 0] = 0) : False := by
  have hev : unitGrid4.shape 1 % 2 = 0 := by norm_num [unitGrid4]
  obtain ⟨-, hd2⟩ := decoder_spectrum unitGrid4 unitGrid4_proper hev ω h1 h2 p hp
  have hin : InR (rfftShape2 unitGrid4) ![1, 0] := half_mem.2 ⟨⟨by norm_num, by norm_num [unitGrid4]⟩, by norm_num, by norm_num [unitGrid4]⟩
  have h4 := hd2 _ hin
  simp only [Matrix.cons_val_zero, Matrix.cons_val_one] at h4
  have h6 := v2v_coef unitGrid4_proper (fun r c => (rfftn (k := 1) ω).data ![r, c]) (fun _ => 1) 1 0 (by norm_num) (by norm_num [unitGrid4]) h5
  have hcen : centred (unitGrid4.shape 0) 1 = 1 := by
    have : unitGrid4.shape 0 = 4 := rfl
    rw [this]
    decide
  rw [hcen] at h6
  rw [hr, h6] at h4
  have h7 : waveX unitGrid4 (1, 0) ≠ 0 := by
    have : waveX unitGrid4 (1, 0) = 2 * Real.pi := by norm_num [waveX, unitGrid4]
    rw [this]
    positivity
  have h8 : waveY unitGrid4 (1, 0) = 0 := by norm_num [waveY]
  dsimp only at h4
  unfold velYCoef streamCoef at h4
  rw [h8] at h4
  have h9 : ((waveX unitGrid4 (1, 0) : ℝ) : ℂ) ≠ 0 := by exact_mod_cast h7
  generalize waveX unitGrid4 (1, 0) = t at *
  have h10 : (((t ^ 2 + 0 ^ 2 : ℝ)) : ℂ) ≠ 0 := by
    rw [zero_pow two_ne_zero, add_zero]
    exact_mod_cast pow_ne_zero 2 h7
  exact (neg_ne_zero.2 (mul_ne_zero (mul_ne_zero Complex.I_ne_zero h9) (div_ne_zero one_ne_zero h10))) h4.symm

/-- A velocity that is not zero and meets the hypotheses of the roundtrip theorems, as a trajectory with one frame. -/
example : ∃ U V : NArr 3 ℝ, HasFrames [U, V] ∧ (lastFrame U).shape = unitGrid4.shape ∧ (lastFrame V).shape = unitGrid4.shape ∧
    (∑ i ∈ box unitGrid4.shape, (lastFrame U).data i = 0 ∧ ∑ i ∈ box unitGrid4.shape, (lastFrame V).data i = 0) ∧
    SpectrallySolenoidal unitGrid4 (lastFrame U) (lastFrame V) ∧ NyquistFree unitGrid4 (lastFrame U) ∧ NyquistFree unitGrid4 (lastFrame V) ∧
    ∃ i : Idx 2, InR unitGrid4.shape i ∧ (lastFrame V).data i ≠ 0 := by
  have hev : unitGrid4.shape 1 % 2 = 0 := by norm_num [unitGrid4]
  obtain ⟨ω, h1, h2, h3⟩ := exists_nyquistFree unitGrid4 unitGrid4_proper hev (f := fun p => if p = (1, 0) ∨ p = (-1, 0) then 1 else 0)
    (fun p => by
      have : (-p = (1, 0) ∨ -p = (-1, 0)) ↔ (p = (1, 0) ∨ p = (-1, 0)) := by
        rw [neg_eq_iff_eq_neg, neg_eq_iff_eq_neg]; exact or_comm
      simp only [this]
      split_ifs <;> simp)
  obtain ⟨p, hp, ⟨hp1, hp2⟩, -⟩ := decoder_field unitGrid4 unitGrid4_proper hev ω h1 h2
  obtain ⟨k1, k2, k3, k4⟩ := C61_decoder_solenoidal unitGrid4 unitGrid4_proper hev ω h1 h2 p hp
  refine ⟨oneFrame p.1, oneFrame p.2, oneFrame_frames _ _, ?_⟩
  rw [lastFrame_oneFrame, lastFrame_oneFrame]
  refine ⟨hp1, hp2, k2, k1, k3, k4, ?_⟩
  by_contra hc
  push Not at hc
  have hr : (rfftn (k := 1) p.2).data ![1, 0] = 0 := rfftn_zero (by rw [hp2]; exact hc) (by rw [hp2]; unfold InR unitGrid4; decide)
  have h5 := h3 _ (half_mem.2 ⟨⟨by norm_num, by norm_num [unitGrid4]⟩, by norm_num, by norm_num [unitGrid4]⟩ : InR (rfftShape2 unitGrid4) ![1, 0])
  rw [unitGrid4_multiplier, if_pos (Or.inl rfl)] at h5
  exact unitGrid4_velocity ω h1 h2 h5 p hp hr

/-- Three frames on `unitGrid4`. -/
def threeFrames : NArr 3 ℝ := ⟨Fin.cons (α := fun _ => ℕ) 3 fun _ => 4, fun i => 100 * i 0 + 10 * i 1 + i 2⟩

example : UniformFrames (fun _ : Fin 2 => 4) 3 [threeFrames, threeFrames] ∧ HasFrames [threeFrames, threeFrames] ∧
    (∀ x ∈ [threeFrames, threeFrames], ∀ b, x.shape (Fin.succ b) = unitGrid4.shape b) := by
  refine ⟨?_, ?_, ?_⟩ <;> intro x hx <;> (have hx : x = threeFrames := by simpa using hx) <;> subst hx
  · rfl
  · exact Nat.succ_pos 2
  · intro b; rfl

/-- The hypotheses of `C61_aligned_restart`, with the default periodic conditions. -/
example [HasNan ℝ] : ∃ v, alignedArrayEncoder unitGrid4 (some (List.ofFn unitGrid4.cellFaces)) none (some [periodicBC 2, periodicBC 2])
      [threeFrames, threeFrames] = .ok v ∧
    (∀ k (h1 : k < [threeFrames, threeFrames].length) (h2 : k < (List.ofFn unitGrid4.cellFaces).length) (h3 : k < [(periodicBC 2 : BC 2 ℝ), periodicBC 2].length),
      BC.OnGrid [(periodicBC 2 : BC 2 ℝ), periodicBC 2][k] ⟨lastFrame [threeFrames, threeFrames][k], (List.ofFn unitGrid4.cellFaces)[k], unitGrid4⟩) ∧
    ∃ out : List (NArr 3 ℝ), HasFrames out ∧ out.map lastFrame = alignedArrayDecoder v := by
  obtain ⟨v, hv, -, -, hd⟩ := C61_aligned unitGrid4 [threeFrames, threeFrames] (by
      intro x hx; have hx : x = threeFrames := by simpa using hx
      subst hx; exact Nat.succ_pos 2) (by
      intro x hx; have hx : x = threeFrames := by simpa using hx
      subst hx; intro b; rfl)
  refine ⟨v, hv, fun k h1 h2 h3 => ?_, [threeFrames, threeFrames], ?_, ?_⟩
  · have hk : k < 2 := h1
    interval_cases k <;> exact fun a => ⟨rfl, Nat.succ_pos 3, Or.inl rfl⟩
  · intro x hx; have hx : x = threeFrames := by simpa using hx
    subst hx; exact Nat.succ_pos 2
  · rw [hd]; rfl


end JaxCfd.ML
