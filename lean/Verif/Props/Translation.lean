import Verif.Lemmas.Translate
import Verif.Props.Advection
import Verif.Model.Diffusion

/-!
# C68: the discrete operators commute with translations of periodic fields
-/

namespace JaxCfd
variable {d : ℕ} {K : Type} {t : Idx d}

section fd
variable [Field K] [HasNan K] [DecidableEq K]

theorem stencilSum_translated {l m : List (GridArray d K)} (h : List.Forall₂ (GridArray.Translated t) l m) : RelE (GridArray.Translated t) (stencilSum l) (stencilSum m) := by
  unfold stencilSum
  have e1 : uniqueOr Err.type (fun u : GridArray d K => u.shape) m = uniqueOr Err.type (fun u : GridArray d K => u.shape) l := uniqueOr_congr (h.imp fun _ _ h => h.shape)
  have e2 : consistentGrid m = consistentGrid l := uniqueOr_congr (h.imp fun _ _ h => h.2.1)
  have e3 : averagedOffset m = averagedOffset l := by
    unfold averagedOffset
    have h1 : m.length = l.length := h.length_eq.symm
    have h2 : ∀ a, (m.map fun u => u.offset a) = l.map fun u => u.offset a := by
      intro a
      clear e1 e2 h1
      induction h with
      | nil => rfl
      | cons h _ ih => rw [List.map_cons, List.map_cons, ih, h.1]
    simp only [h1, h2]
  rw [e1, e2, e3]
  refine RelE.bind (R := fun s s' => s' = s ∧ uniqueOr Err.type (fun u : GridArray d K => u.shape) l = .ok s) (RelE.same _ fun s hs => ⟨rfl, hs⟩) fun s s' hs =>
    RelE.bind (R := fun g g' => g' = g ∧ consistentGrid l = .ok g) (RelE.same _ fun g hg => ⟨rfl, hg⟩) fun g g' hg => RelE.ok ?_
  obtain ⟨rfl, hs⟩ := hs
  obtain ⟨rfl, hg⟩ := hg
  rw [uniqueOr_eq_ok] at hs
  unfold consistentGrid at hg
  rw [uniqueOr_eq_ok] at hg
  obtain ⟨hne, hs⟩ := hs
  replace hg := hg.2
  have hp : s' = g'.shape ∧ ∀ a, 0 < s' a := by
    cases h with
    | nil => exact absurd rfl hne
    | cons h _ =>
        have h1 := hs _ (List.mem_cons_self ..)
        have h2 := hg _ (List.mem_cons_self ..)
        rw [← h1, ← h2]
        exact ⟨h.2.2.1, h.2.2.2.2.1⟩
  refine ⟨rfl, rfl, hp.1, rfl, hp.2, fun i hi => ?_⟩
  show (m.map fun u => u.data i).sum = (l.map fun u => u.data (moved s' t i)).sum
  congr 1
  replace hi : InR s' i := hi
  clear e1 e2 e3 hne hg
  induction h with
  | nil => rfl
  | @cons a b _ _ h _ ih =>
      have h1 : a.shape = s' := hs a (by simp)
      rw [List.map_cons, List.map_cons, ih fun x hx => hs x (by simp [hx])]
      congr 1
      rw [h.2.2.2.2.2 i (by rw [h1]; exact hi), h1]

variable {u v : GridVariable d K}

theorem GridVariable.Translated.grid (h : u.Translated t v) : v.array.grid = u.array.grid := h.2.2.2.1

/-- **C68** Forward differences of a translated field are the translated forward differences. -/
theorem C68_forward_difference (h : u.Translated t v) (ax : Fin d) : RelE (GridArray.Translated t) (forwardDifference u ax) (forwardDifference v ax) := by
  unfold forwardDifference
  rw [h.grid]
  exact RelE.bind (h.shift _ _ _) fun a b hab => RelE.bind (stencilSum_translated (.cons hab (.cons (h.2.2.gmap _) .nil))) fun r s hrs => RelE.ok (hrs.gmap _)

/-- **C68** -/
theorem C68_backward_difference (h : u.Translated t v) (ax : Fin d) : RelE (GridArray.Translated t) (backwardDifference u ax) (backwardDifference v ax) := by
  unfold backwardDifference
  rw [h.grid]
  exact RelE.bind (h.shift _ _ _) fun a b hab => RelE.bind (stencilSum_translated (.cons h.2.2 (.cons (hab.gmap _) .nil))) fun r s hrs => RelE.ok (hrs.gmap _)

/-- **C68** -/
theorem C68_central_difference (h : u.Translated t v) (ax : Fin d) : RelE (GridArray.Translated t) (centralDifference u ax) (centralDifference v ax) := by
  unfold centralDifference
  rw [h.grid]
  exact RelE.bind (h.shift _ _ _) fun a b hab => RelE.bind (h.shift _ _ _) fun a' b' hab' =>
    RelE.bind (stencilSum_translated (.cons hab (.cons (hab'.gmap _) .nil))) fun r s hrs => RelE.ok (hrs.gmap _)

/-- **C68** The laplacian of a translated field. -/
theorem C68_laplacian (h : u.Translated t v) : RelE (GridArray.Translated t) (laplacian u) (laplacian v) := by
  unfold laplacian
  rw [h.grid]
  refine RelE.foldlM _ (fun ax _ a b hab => ?_) (h.2.2.gmap _)
  unfold laplacianAxis
  rw [h.grid]
  exact RelE.bind (h.shift _ _ _) fun _ _ h1 => RelE.bind (h.shift _ _ _) fun _ _ h2 => RelE.bind (stencilSum_translated (.cons h1 (.cons h2 .nil))) fun _ _ h3 => hab.gmap2 (h3.gmap _) _

/-- **C68** Explicit diffusion. -/
theorem C68_diffuse (h : u.Translated t v) (nu : K) : RelE (GridArray.Translated t) (diffuse u nu) (diffuse v nu) :=
  RelE.bind (C68_laplacian h) fun _ _ h1 => RelE.ok (h1.gmap _)

theorem sumArrays_translated {l m : List (GridArray d K)} (h : List.Forall₂ (GridArray.Translated t) l m) : RelE (GridArray.Translated t) (sumArrays l) (sumArrays m) := by
  cases h with
  | nil => exact RelE.error _
  | cons h hl => exact RelE.foldlM2 hl (fun i j hij a b hab => hab.gmap2 hij _) (h.gmap _)

/-- **C68** The divergence of a translated velocity field. -/
theorem C68_divergence {l m : List (GridVariable d K)} (h : List.Forall₂ (GridVariable.Translated t) l m) : RelE (GridArray.Translated t) (divergence l) (divergence m) := by
  unfold divergence
  have e : consistentGrid (m.map (·.array)) = consistentGrid (l.map (·.array)) := by
    refine uniqueOr_congr ?_
    rw [List.forall₂_map_left_iff, List.forall₂_map_right_iff]
    exact h.imp fun _ _ h => h.grid
  rw [e]
  refine RelE.bind (RelE.eq rfl) fun _ _ _ => ?_
  have hl : m.length = l.length := h.length_eq.symm
  by_cases hd : l.length = d
  · rw [dif_pos hd, dif_pos (hl.trans hd)]
    refine RelE.bind (RelE.seqFin (R := fun _ => GridArray.Translated t) fun a => C68_backward_difference ?_ a) fun _ _ h1 => sumArrays_translated (forall₂_ofFn h1)
    exact (List.forall₂_iff_get.1 h).2 a.1 (by rw [hd]; exact a.2) (by rw [hl, hd]; exact a.2)
  · rw [dif_neg hd, dif_neg (by rw [hl]; exact hd)]
    exact RelE.error _

/-- **C68** The curl in two dimensions. -/
theorem C68_curl2d {t : Idx 2} {l m : List (GridVariable 2 K)} (h : List.Forall₂ (GridVariable.Translated t) l m) : RelE (GridArray.Translated t) (curl2d l) (curl2d m) := by
  unfold curl2d
  match l, m, h with
  | [], _, .nil => exact RelE.error _
  | [_], _, .cons _ .nil => exact RelE.error _
  | [_, _], _, .cons h0 (.cons h1 .nil) =>
      dsimp only
      refine RelE.bind (RelE.eq (uniqueOr_congr (.cons h0.grid.symm (.cons h1.grid.symm .nil)))) fun _ _ _ => ?_
      exact RelE.bind (C68_forward_difference h1 0) fun _ _ ha => RelE.bind (C68_forward_difference h0 1) fun _ _ hb => ha.gmap2 hb _
  | _ :: _ :: _ :: _, _, .cons _ (.cons _ (.cons _ _)) => exact RelE.error _

end fd

section interp
variable [Field K] [HasNan K] {u v : GridVariable d K}

theorem relabel {a b : GridArray d K} (h : a.Translated t b) (o : Fin d → ℚ) (g : Grid d K) (hg : a.grid = g) (bc : BC d K) (hbc : ∀ a, bc.types a = (.periodic, .periodic)) :
    GridVariable.Translated t ⟨⟨a.toNArr, o, g⟩, bc⟩ ⟨⟨b.toNArr, o, g⟩, bc⟩ := ⟨rfl, hbc, rfl, rfl, by rw [← hg]; exact h.2.2.1, h.2.2.2⟩

theorem shift_translated (h : u.Translated t v) (k : ℤ) (ax : Fin d) (mode : Padding) :
    RelE (fun a b => GridArray.Translated t a b ∧ a.grid = u.array.grid ∧ a.shape = u.array.shape) (u.shift k ax mode) (v.shift k ax mode) := by
  have h1 := h.shift k ax mode
  refine ⟨h1.1, fun r hr => ?_⟩
  obtain ⟨s, hs, hrs⟩ := h1.2 r hr
  obtain ⟨hu, -⟩ := h.periodic
  have := BC.shift_periodic_eq hr (hu.1 ax) (hu.2 ax).1 (hu.2 ax).2
  rw [this] at hrs ⊢
  exact ⟨s, hs, hrs, rfl, rfl⟩

theorem linearAlongAxis_translated (h : u.Translated t v) (o : ℚ) (ax : Fin d) : RelE (GridVariable.Translated t) (linearAlongAxis u o ax) (linearAlongAxis v o ax) := by
  unfold linearAlongAxis
  dsimp only
  rw [h.2.2.1, h.1, h.2.2.2.1]
  split_ifs
  · exact RelE.ok h
  · exact RelE.bind (shift_translated h _ _ _) fun _ _ h1 => RelE.ok (relabel h1.1 _ _ h1.2.1 _ h.2.1)
  · refine RelE.bind (shift_translated h _ _ _) fun _ _ h1 => RelE.bind (shift_translated h _ _ _) fun _ _ h2 => RelE.ok ⟨rfl, h.2.1, rfl, rfl, ?_, ?_⟩
    · show _ = u.array.grid.shape
      rw [← h.2.2.2.2.1]
      exact h1.2.2
    · exact h1.1.2.2.2.map2 h2.1.2.2.2 (h2.2.2.trans h1.2.2.symm) _

/-- **C68** Linear interpolation of a translated field. -/
theorem C68_linear (h : u.Translated t v) (o : Fin d → ℚ) : RelE (GridVariable.Translated t) (linear u o) (linear v o) :=
  RelE.foldlM _ (fun a _ _ _ hab => linearAlongAxis_translated hab (o a) a) h

end interp

section upwind
variable [Field K] [LinearOrder K] [HasNan K]

/-- Both fields and velocities translated: the interpolation function commutes with translations of periodic fields. -/
def TranslationEquivariant (fn : InterpFn d K) : Prop :=
  ∀ (t : Idx d) (c c' : GridVariable d K) (o : Fin d → ℚ) (v v' : Fin d → GridVariable d K) (dt : K), c.Translated t c' → (∀ a, (v a).Translated t (v' a)) →
    RelE (GridVariable.Translated t) (fn c o v dt) (fn c' o v' dt)

theorem jnpWhere_translated {p p' : NArr d Bool} {x x' y y' : NArr d K} (hp : p.Translated t p') (hx : x.Translated t x') (hy : y.Translated t y') :
    RelE (fun a b => NArr.Translated t a b ∧ a.shape = x.shape) (jnpWhere p x y) (jnpWhere p' x' y') := by
  unfold jnpWhere
  rw [hp.1, hx.1, hy.1]
  by_cases hs : p.shape = x.shape ∧ x.shape = y.shape
  · rw [if_pos hs, if_pos hs]
    refine RelE.ok ⟨⟨rfl, hx.2.1, fun i hi => ?_⟩, rfl⟩
    have hi' : InR x.shape i := hi
    show (if p'.data i = true then x'.data i else y'.data i) = if p.data (moved x.shape t i) = true then x.data (moved x.shape t i) else y.data (moved x.shape t i)
    rw [hp.2.2 i (by rw [hs.1]; exact hi'), hx.2.2 i hi', hy.2.2 i (by rw [← hs.2]; exact hi'), hs.1, ← hs.2]
  · rw [if_neg hs, if_neg hs]
    exact RelE.error _

theorem upwindAlong_translated {c c' u v : GridVariable d K} (hc : c.Translated t c') (h : u.Translated t v) (o : Fin d → ℚ) (ax : Fin d) :
    RelE (GridVariable.Translated t) (upwindAlong c o u ax) (upwindAlong c' o v ax) := by
  unfold upwindAlong
  dsimp only
  have eg : consistentGrid [c'.array, v.array] = consistentGrid [c.array, u.array] := uniqueOr_congr (.cons hc.grid (.cons h.grid .nil))
  rw [hc.2.2.1, h.2.2.1, hc.1, eg]
  split_ifs
  · refine RelE.bind (shift_translated hc _ _ _) fun _ _ h1 => RelE.bind (R := fun g g' => g' = g ∧ consistentGrid [c.array, u.array] = .ok g) (RelE.same _ fun g hg => ⟨rfl, hg⟩) fun g g' hg => ?_
    obtain ⟨rfl, hg⟩ := hg
    have := (uniqueOr_eq_ok.1 hg).2 c.array (by simp)
    exact RelE.ok (relabel h1.1 _ _ (h1.2.1.trans this) _ hc.2.1)
  · refine RelE.bind (shift_translated hc _ _ _) fun _ _ h1 => RelE.bind (shift_translated hc _ _ _) fun _ _ h2 => RelE.bind (jnpWhere_translated (h.2.2.2.2.2.map _) h1.1.2.2.2 h2.1.2.2.2) fun x x' hx =>
      RelE.bind (R := fun g g' => g' = g ∧ consistentGrid [c.array, u.array] = .ok g) (RelE.same _ fun g hg => ⟨rfl, hg⟩) fun g g' hg => ?_
    obtain ⟨rfl, hg⟩ := hg
    have : c.array.grid = g' := (uniqueOr_eq_ok.1 hg).2 c.array (by simp)
    refine RelE.ok ⟨rfl, fun _ => rfl, rfl, rfl, ?_, hx.1⟩
    show x.shape = g'.shape
    rw [hx.2, h1.2.2, ← this]
    exact hc.2.2.2.2.1

end upwind
end JaxCfd
