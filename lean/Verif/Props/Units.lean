import Verif.Lemmas.Units
import Verif.Model.BCUtils
import Verif.Model.Pressure
import Verif.Model.Diffusion
import Mathlib.Tactic.LinearCombination

/-!
# C77: no hidden units — the discrete operators

Lengths measured in a unit that is `l` times smaller, and the quantity in a unit that is `m` times smaller: every operator returns the same
result in the new units.  Nothing is assumed about the boundary conditions except that sides that are not periodic have a value.
-/

namespace JaxCfd
variable {d : ℕ} {K : Type} [Field K] {l m : K}

theorem RelS.eq {α : Type} (x : Except Err α) : RelS (fun a b => b = a) x x := fun r hr => ⟨r, hr, rfl⟩

/-- `seqFin` with the components in their order. -/
theorem RelS.seq {α β : Type} {R : Fin d → α → β → Prop} {f : Fin d → Except Err α} {g : Fin d → Except Err β} (h : ∀ a, RelS (R a) (f a) (g a)) :
    RelS (fun u v => ∀ a, R a (u a) (v a)) (JaxCfd.seqFin f) (JaxCfd.seqFin g) := RelS.seqFin (Equiv.refl _) h

section grids
variable [DecidableEq K]

theorem consistentGrid_inUnits {us vs : List (GridArray d K)} (h : List.Forall₂ (fun a b => b.grid = a.grid.inUnits l) us vs) :
    RelS (fun x y => y = x.inUnits l ∧ ∀ a ∈ us, a.grid = x) (consistentGrid us) (consistentGrid vs) := by
  intro r hr
  obtain ⟨h0, h1⟩ := uniqueOr_eq_ok.1 hr
  refine ⟨r.inUnits l, uniqueOr_eq_ok.2 ⟨?_, ?_⟩, rfl, h1⟩
  · intro e
    rw [e] at h
    exact h0 (List.forall₂_nil_right_iff.1 h)
  · clear h0 hr
    induction h with
    | nil => simp
    | cons hab _ ih =>
      intro x hx
      rcases List.mem_cons.1 hx with rfl | hx
      · rw [hab, h1 _ (by simp)]
      · exact ih (fun a ha => h1 a (by simp [ha])) x hx

theorem consistentGrid_ofFn_inUnits {n : ℕ} {us vs : Fin n → GridArray d K} (h : ∀ a, (vs a).grid = (us a).grid.inUnits l) :
    RelS (fun x y => y = x.inUnits l ∧ ∀ a, (us a).grid = x) (consistentGrid (List.ofFn us)) (consistentGrid (List.ofFn vs)) := by
  intro r hr
  obtain ⟨h0, h1⟩ := uniqueOr_eq_ok.1 hr
  refine ⟨r.inUnits l, uniqueOr_eq_ok.2 ⟨by simpa using h0, fun x hx => ?_⟩, rfl, fun a => h1 _ (List.mem_ofFn.2 ⟨a, rfl⟩)⟩
  obtain ⟨a, rfl⟩ := (List.mem_ofFn' _ _).1 hx
  rw [h a, h1 _ (List.mem_ofFn.2 ⟨a, rfl⟩)]

end grids

section arrays
variable [HasNan K] [DecidableEq K] {u v u' v' : GridArray d K} {m' n : K}

omit [HasNan K] [DecidableEq K] in
theorem GridArray.InUnits.neg (h : u.InUnits l m v) : (JaxCfd.gmap (fun x => -x) u).InUnits l m (JaxCfd.gmap (fun x => -x) v) := h.gmap fun x => by ring

theorem GridArray.InUnits.gmap2 {f g : K → K → K} (h : u.InUnits l m v) (h' : u'.InUnits l m' v') (hf : ∀ a b, g (m * a) (m' * b) = n * f a b) :
    RelS (GridArray.InUnits l n) (JaxCfd.gmap2 f u u') (JaxCfd.gmap2 g v v') := by
  intro r hr
  obtain ⟨e1, e2, e3, rfl⟩ := gmap2_eq_ok.1 hr
  rw [gmap2_ok (by rw [h.shape, h'.shape, e1]) (by rw [h.offset, h'.offset, e2]) (by rw [h.grid, h'.grid, e3])]
  refine ⟨_, rfl, h.offset, h.grid, h.shape, fun i hi => ?_⟩
  replace hi : InR u.shape i := hi
  show g (v.data i) (v'.data i) = n * f (u.data i) (u'.data i)
  rw [h.data hi, h'.data (by rw [← e1]; exact hi), hf]

theorem stencilSum_pair_inUnits (h : u.InUnits l m v) (h' : u'.InUnits l m v') : RelS (GridArray.InUnits l m) (stencilSum [u, u']) (stencilSum [v, v']) := by
  intro r hr
  unfold stencilSum at hr
  obtain ⟨s, hs, hr⟩ := Except.bind_eq_ok.1 hr
  obtain ⟨g, hg, hr⟩ := Except.bind_eq_ok.1 hr
  obtain ⟨-, hs⟩ := uniqueOr_eq_ok.1 hs
  obtain ⟨-, hg⟩ := uniqueOr_eq_ok.1 hg
  have s1 : u.shape = s := hs u (by simp)
  have s2 : u'.shape = s := hs u' (by simp)
  have g1 : u.grid = g := hg u (by simp)
  have g2 : u'.grid = g := hg u' (by simp)
  rw [stencilSum_pair (by rw [h.shape, h'.shape, s1, s2]) (by rw [h.grid, h'.grid, g1, g2])]
  rw [← Except.ok.inj hr]
  refine ⟨_, rfl, ?_, by rw [h.grid, g1], by rw [← s1]; exact h.shape, fun i hi => ?_⟩
  · funext a
    simp [averagedOffset, h.offset, h'.offset]
  · replace hi : InR s i := hi
    show v.data i + v'.data i = m * ([u, u'].map fun w => w.data i).sum
    rw [h.data (by rw [s1]; exact hi), h'.data (by rw [s2]; exact hi)]
    simp only [List.map_cons, List.map_nil, List.sum_cons, List.sum_nil, add_zero]
    ring

theorem sumArrays_inUnits {us vs : List (GridArray d K)} (h : List.Forall₂ (GridArray.InUnits l m) us vs) : RelS (GridArray.InUnits l m) (sumArrays us) (sumArrays vs) := by
  cases h with
  | nil => exact RelS.error _ _
  | @cons a b us vs hab hl =>
    unfold sumArrays
    dsimp only
    have h0 : (gmap (fun x => 0 + x) a).InUnits l m (gmap (fun x => 0 + x) b) := hab.gmap fun x => by ring
    generalize gmap (fun x => 0 + x) a = a0 at h0
    generalize gmap (fun x => 0 + x) b = b0 at h0
    clear hab
    induction hl generalizing a0 b0 with
    | nil => exact RelS.ok h0
    | cons hab _ ih =>
      rw [List.foldlM_cons, List.foldlM_cons]
      exact RelS.bind (h0.gmap2 hab fun x y => by ring) fun x y hxy => ih _ _ hxy

end arrays

section fd
variable [HasNan K] {u v : GridVariable d K}

/-- **C77** Shifting, whatever the boundary conditions. -/
theorem C77_shift (hl : l ≠ 0) (h : u.InUnits l m v) (k : ℤ) (ax : Fin d) (mode : Padding) : RelS (GridArray.InUnits l m) (u.shift k ax mode) (v.shift k ax mode) := by
  unfold GridVariable.shift
  rw [h.1]
  exact BC.shift_inUnits hl u.bc h.2.1 h.2.2 k ax mode

/-- **C77** Imposing boundary conditions. -/
theorem C77_impose_bc (hl : l ≠ 0) (bc : BC d K) (hb : bc.Given) {a b : GridArray d K} (h : a.InUnits l m b) : RelS (GridVariable.InUnits l m) (bc.imposeBC a) ((bc.inUnits l m).imposeBC b) :=
  BC.imposeBC_inUnits hl bc hb h

theorem div_units (hl : l ≠ 0) (x s : K) : m * x / (l * s) = m / l * (x / s) := by rw [div_mul_div_comm]

variable [DecidableEq K]

/-- **C77** Differences along an axis: the result is in the unit of the quantity divided by the unit of length. -/
theorem C77_differences (hl : l ≠ 0) (h : u.InUnits l m v) (a : Fin d) :
    RelS (GridArray.InUnits l (m / l)) (centralDifference u a) (centralDifference v a) ∧ RelS (GridArray.InUnits l (m / l)) (backwardDifference u a) (backwardDifference v a) ∧
      RelS (GridArray.InUnits l (m / l)) (forwardDifference u a) (forwardDifference v a) := by
  refine ⟨?_, ?_, ?_⟩
  · refine RelS.bind (C77_shift hl h _ _ _) fun p p' hp => RelS.bind (C77_shift hl h _ _ _) fun q q' hq => RelS.bind (stencilSum_pair_inUnits hp hq.neg) fun s s' hs =>
      RelS.ok (hs.gmap fun x => ?_)
    rw [h.2.2.step, ← div_units hl]
    congr 1
    ring
  · refine RelS.bind (C77_shift hl h _ _ _) fun p p' hp => RelS.bind (stencilSum_pair_inUnits h.2.2 hp.neg) fun s s' hs => RelS.ok (hs.gmap fun x => ?_)
    rw [h.2.2.step, ← div_units hl]
  · refine RelS.bind (C77_shift hl h _ _ _) fun p p' hp => RelS.bind (stencilSum_pair_inUnits hp h.2.2.neg) fun s s' hs => RelS.ok (hs.gmap fun x => ?_)
    rw [h.2.2.step, ← div_units hl]

/-- **C77** The laplacian. -/
theorem C77_laplacian (hl : l ≠ 0) (h : u.InUnits l m v) : RelS (GridArray.InUnits l (m / l ^ 2)) (laplacian u) (laplacian v) := by
  unfold laplacian
  have hi : ∀ a, (1 / v.array.grid.step a) ^ 2 = (1 / l ^ 2) * (1 / u.array.grid.step a) ^ 2 := fun a => by
    rw [h.2.2.step, one_div, mul_inv, mul_pow, one_div, one_div, inv_pow]
  refine RelS.foldlM _ (fun a _ x y hxy => ?_) (h.2.2.gmap fun x => ?_)
  · unfold laplacianAxis
    refine RelS.bind (C77_shift hl h _ _ _) fun p p' hp => RelS.bind (C77_shift hl h _ _ _) fun q q' hq => RelS.bind (stencilSum_pair_inUnits hp hq) fun s s' hs =>
      hxy.gmap2 (m' := m / l ^ 2) (hs.gmap fun x => ?_) fun x y => by ring
    rw [hi]
    ring
  · simp only [hi, ← Finset.mul_sum]
    ring

/-- **C77** Explicit diffusion: the viscosity has the unit length² / time (`τ` is the factor of times). -/
theorem C77_diffuse (hl : l ≠ 0) (h : u.InUnits l m v) (nu τ : K) : RelS (GridArray.InUnits l (m / τ)) (diffuse u nu) (diffuse v (l ^ 2 / τ * nu)) :=
  RelS.bind (C77_laplacian hl h) fun _ _ h1 => RelS.ok (h1.gmap fun x => by field_simp)

/-- **C77** The divergence of a velocity field. -/
theorem C77_divergence (hl : l ≠ 0) {n : ℕ} {u v : Fin n → GridVariable d K} (h : ∀ a, (u a).InUnits l m (v a)) :
    RelS (GridArray.InUnits l (m / l)) (divergence (List.ofFn u)) (divergence (List.ofFn v)) ∧ RelS (GridArray.InUnits l (m / l)) (centeredDivergence (List.ofFn u)) (centeredDivergence (List.ofFn v)) := by
  unfold divergence centeredDivergence
  have hg : RelS (fun _ _ => True) (consistentGrid ((List.ofFn u).map (·.array))) (consistentGrid ((List.ofFn v).map (·.array))) := by
    rw [List.map_ofFn, List.map_ofFn]
    exact (consistentGrid_ofFn_inUnits fun a => (h a).2.2.grid).mono fun _ _ _ _ => trivial
  refine ⟨RelS.bind hg fun _ _ _ => ?_, RelS.bind hg fun _ _ _ => ?_⟩ <;>
  · by_cases hd : n = d
    · subst hd
      rw [dif_pos (List.length_ofFn), dif_pos (List.length_ofFn)]
      refine RelS.bind (RelS.seq (R := fun _ => GridArray.InUnits l (m / l)) fun a => ?_) fun x y hxy => sumArrays_inUnits ?_
      · simp only [List.getElem_ofFn, Fin.eta]
        first
          | exact (C77_differences hl (h a) a).2.1
          | exact (C77_differences hl (h a) a).1
      · rw [List.forall₂_iff_get]
        refine ⟨by simp, fun i h1 h2 => ?_⟩
        simp only [List.get_eq_getElem, List.getElem_ofFn]
        exact hxy _
    · rw [dif_neg (by simpa using hd)]
      exact RelS.error _ _

/-- **C77** The curls. -/
theorem C77_curl (hl : l ≠ 0) :
    (∀ u0 u1 v0 v1 : GridVariable 2 K, u0.InUnits l m v0 → u1.InUnits l m v1 → RelS (GridArray.InUnits l (m / l)) (curl2d [u0, u1]) (curl2d [v0, v1])) ∧
      ∀ u0 u1 u2 v0 v1 v2 : GridVariable 3 K, u0.InUnits l m v0 → u1.InUnits l m v1 → u2.InUnits l m v2 →
        RelS (fun x y => x.1.InUnits l (m / l) y.1 ∧ x.2.1.InUnits l (m / l) y.2.1 ∧ x.2.2.InUnits l (m / l) y.2.2) (curl3d [u0, u1, u2]) (curl3d [v0, v1, v2]) := by
  refine ⟨fun u0 u1 v0 v1 h0 h1 => ?_, fun u0 u1 u2 v0 v1 v2 h0 h1 h2 => ?_⟩
  · unfold curl2d
    exact RelS.bind (consistentGrid_inUnits (.cons h0.2.2.grid (.cons h1.2.2.grid .nil))) fun _ _ _ => RelS.bind (C77_differences hl h1 0).2.2 fun a a' ha =>
      RelS.bind (C77_differences hl h0 1).2.2 fun b b' hb => ha.gmap2 hb fun x y => by ring
  · have hc : ∀ (p q p' q' : GridVariable 3 K) a b, p.InUnits l m p' → q.InUnits l m q' → RelS (GridArray.InUnits l (m / l)) (curlComponent p q a b) (curlComponent p' q' a b) :=
      fun p q p' q' a b hp hq => RelS.bind (C77_differences hl hp a).2.2 fun a a' ha => RelS.bind (C77_differences hl hq b).2.2 fun b b' hb => ha.gmap2 hb fun x y => by ring
    unfold curl3d
    exact RelS.bind (consistentGrid_inUnits (.cons h0.2.2.grid (.cons h1.2.2.grid (.cons h2.2.2.grid .nil)))) fun _ _ _ => RelS.bind (hc _ _ _ _ _ _ h2 h1) fun x x' hx =>
      RelS.bind (hc _ _ _ _ _ _ h0 h2) fun y y' hy => RelS.bind (hc _ _ _ _ _ _ h1 h0) fun z z' hz => RelS.ok ⟨hx, hy, hz⟩

end fd

section interp
variable [HasNan K] {u v : GridVariable d K}

/-- The offsets do not lie beyond the grid, and the grid is not empty. -/
def GridArray.Fits (u : GridArray d K) : Prop := ∀ a, 0 < u.grid.shape a ∧ u.offset a ≤ u.grid.shape a

omit [HasNan K] in
theorem GridArray.InUnits.fits {u v : GridArray d K} (h : u.InUnits l m v) (hu : u.Fits) : v.Fits := fun a => by rw [h.gridShape, h.offset]; exact hu a

/-- What makes the shifted copies of an array equally large. -/
def ShiftsFit (u : GridVariable d K) (L : List (Fin d)) : Prop := u.Periodic ∨ ∀ a ∈ L, 0 < u.array.grid.shape a ∧ u.array.offset a ≤ u.array.grid.shape a

theorem ShiftsFit.shape {L : List (Fin d)} (h : ShiftsFit u L) {a : Fin d} (ha : a ∈ L) {k : ℤ} {mode : Padding} {r : GridArray d K} (hr : u.shift k a mode = .ok r) : r.shape = u.array.shape := by
  rcases h with h | h
  · rw [BC.shift_periodic_eq hr (h.1 a) (h.2 a).1 (h.2 a).2]
  · exact (C08_shift_shape_and_offset _ _ _ _ _ _ (h a ha).1 (h a ha).2 hr).2.1

theorem linearAlongAxis_inUnits (hl : l ≠ 0) (h : u.InUnits l m v) (o : ℚ) (a : Fin d) {L : List (Fin d)} (hn : a ∉ L) (hf : ShiftsFit u (a :: L)) :
    RelS (fun r s => r.InUnits l m s ∧ ShiftsFit r L) (linearAlongAxis u o a) (linearAlongAxis v o a) := by
  have mk : ∀ {x : NArr d K}, x.shape = u.array.shape → ShiftsFit (⟨⟨x, Function.update u.array.offset a o, u.array.grid⟩, u.bc⟩ : GridVariable d K) L := fun {x} hx => by
    rcases hf with hf | hf
    · exact Or.inl ⟨hf.1, fun b => by show x.shape b = _ ∧ _; rw [hx]; exact hf.2 b⟩
    · refine Or.inr fun b hb => ?_
      show _ ∧ Function.update u.array.offset a o b ≤ _
      rw [Function.update_of_ne (fun e : b = a => hn (by rw [← e]; exact hb))]
      exact hf b (by simp [hb])
  have hf1 := hf
  unfold linearAlongAxis
  dsimp only
  rw [h.2.2.offset, h.1]
  split_ifs
  · refine RelS.ok ⟨h, hf.imp id fun hf b hb => hf b (by simp [hb])⟩
  · exact RelS.bind' (C77_shift hl h _ _ _) fun x y hx hxy => RelS.ok ⟨⟨rfl, h.2.1, rfl, h.2.2.grid, hxy.2.2⟩, mk (hf.shape (by simp) hx)⟩
  · refine RelS.bind' (C77_shift hl h _ _ _) fun x x' hx hxx => RelS.bind' (C77_shift hl h _ _ _) fun y y' hy hyy =>
      RelS.ok ⟨⟨rfl, h.2.1, rfl, h.2.2.grid, map2_scaled hxx.2.2 hyy.2.2 ?_ fun p q => by ring⟩, mk (hf.shape (by simp) hx)⟩
    rw [hf.shape (by simp) hx, hf.shape (by simp) hy]

/-- **C77** Linear interpolation. -/
theorem C77_linear (hl : l ≠ 0) (h : u.InUnits l m v) (hf : u.Periodic ∨ u.array.Fits) (o : Fin d → ℚ) : RelS (GridVariable.InUnits l m) (linear u o) (linear v o) := by
  unfold linear
  have hn := List.nodup_finRange d
  have hf' : ShiftsFit u (List.finRange d) := hf.imp id fun hf a _ => hf a
  clear hf
  revert hn hf'
  generalize List.finRange d = L
  intro hn hf
  induction L generalizing u v with
  | nil => exact RelS.ok h
  | cons a L ih =>
    rw [List.foldlM_cons, List.foldlM_cons]
    rw [List.nodup_cons] at hn
    exact RelS.bind (linearAlongAxis_inUnits hl h (o a) a hn.1 hf) fun x y hxy => ih hxy.1 hn.2 hxy.2

end interp
end JaxCfd
