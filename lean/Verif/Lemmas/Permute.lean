import Verif.SpecPermute
import Verif.Lemmas.Translate
import Verif.Lemmas.Subgrid

/-!
# Relabelling the axes: relational lemmas
-/

namespace JaxCfd
variable {d : ℕ} {K : Type}

namespace RelS
variable {α β γ δ : Type} {R : α → β → Prop} {S : γ → δ → Prop}

theorem ok {a : α} {b : β} (h : R a b) : RelS R (.ok a) (.ok b) := fun r hr => ⟨b, rfl, by cases hr; exact h⟩

theorem error (e : Err) (y : Except Err β) : RelS R (.error e : Except Err α) y := fun _ h => nomatch h

theorem bind {x : Except Err α} {y : Except Err β} {f : α → Except Err γ} {g : β → Except Err δ} (h : RelS R x y) (hf : ∀ a b, R a b → RelS S (f a) (g b)) :
    RelS S (x >>= f) (y >>= g) := by
  intro r hr
  obtain ⟨a, ha, hr⟩ := Except.bind_eq_ok.1 hr
  obtain ⟨b, hb, hab⟩ := h a ha
  rw [hb]
  exact hf a b hab r hr

/-- `bind` with the run of the first computation remembered. -/
theorem bind' {x : Except Err α} {y : Except Err β} {f : α → Except Err γ} {g : β → Except Err δ} (h : RelS R x y) (hf : ∀ a b, x = .ok a → R a b → RelS S (f a) (g b)) :
    RelS S (x >>= f) (y >>= g) := by
  intro r hr
  obtain ⟨a, ha, hr⟩ := Except.bind_eq_ok.1 hr
  obtain ⟨b, hb, hab⟩ := h a ha
  rw [hb]
  exact hf a b ha hab r hr

theorem mono {R' : α → β → Prop} {x : Except Err α} {y : Except Err β} (h : RelS R x y) (hR : ∀ a b, x = .ok a → R a b → R' a b) : RelS R' x y := by
  intro r hr
  obtain ⟨s, hs, h'⟩ := h r hr
  exact ⟨s, hs, hR _ _ hr h'⟩

/-- Components exchanged by a permutation. -/
theorem seqFin {R : Fin d → α → β → Prop} (σ : Equiv.Perm (Fin d)) {f : Fin d → Except Err α} {g : Fin d → Except Err β} (h : ∀ a, RelS (R a) (f (σ a)) (g a)) :
    RelS (fun u v => ∀ a, R a (u (σ a)) (v a)) (JaxCfd.seqFin f) (JaxCfd.seqFin g) := by
  intro r hr
  have hr' := (seqFin_eq_ok _ _).1 hr
  have : ∀ a, ∃ s, g a = .ok s ∧ R a (r (σ a)) s := fun a => h a _ (hr' (σ a))
  choose s hs hR using this
  exact ⟨s, (seqFin_eq_ok _ _).2 hs, hR⟩

theorem foldlM {ι : Type} {f : α → ι → Except Err α} {g : β → ι → Except Err β} (l : List ι) (h : ∀ i ∈ l, ∀ a b, R a b → RelS R (f a i) (g b i)) {a : α} {b : β} (hab : R a b) :
    RelS R (l.foldlM f a) (l.foldlM g b) := by
  induction l generalizing a b with
  | nil => exact ok hab
  | cons i l ih =>
      rw [List.foldlM_cons, List.foldlM_cons]
      exact bind (h i (by simp) a b hab) fun a' b' h' => ih (fun i hi => h i (by simp [hi])) h'

end RelS

variable {σ : Equiv.Perm (Fin d)}

theorem original_inR {s s' : Fin d → ℕ} (hs : ∀ a, s' a = s (σ a)) {i : Idx d} (hi : InR s' i) : InR s (original σ i) := by
  intro b
  have := hi (σ.symm b)
  rw [hs, Equiv.apply_symm_apply] at this
  exact this

theorem original_roll {s s' : Fin d → ℕ} (hs : ∀ a, s' a = s (σ a)) (i : Idx d) (a : Fin d) (k : ℤ) : original σ (rollIdx s' a k i) = rollIdx s (σ a) k (original σ i) := by
  funext b
  unfold original rollIdx
  by_cases h : b = σ a
  · subst h
    simp [hs]
  · rw [Function.update_of_ne h, Function.update_of_ne]
    intro h'
    exact h (by rw [← h', Equiv.apply_symm_apply])

theorem Grid.permute_step [Field K] (g : Grid d K) (a : Fin d) : (g.permute σ).step a = g.step (σ a) := rfl

theorem BC.permute_periodic {b : BC d K} (h : ∀ a, b.types a = (.periodic, .periodic)) (a : Fin d) : (b.permute σ).types a = (.periodic, .periodic) := h (σ a)

theorem update_relabelled {α : Type} {o o' : Fin d → α} (h : ∀ a, o' a = o (σ a)) (b : Fin d) (x : α) (a : Fin d) : Function.update o' b x a = Function.update o (σ b) x (σ a) := by
  by_cases hab : a = b
  · subst hab
    simp
  · rw [Function.update_of_ne hab, Function.update_of_ne (fun h => hab (σ.injective h)), h]

namespace NArr.Transposed

theorem map {L : Type} {u v : NArr d K} (h : u.Transposed σ v) (f : K → L) : (u.map f).Transposed σ (v.map f) := ⟨h.1, h.2.1, fun i hi => congrArg f (h.2.2 i hi)⟩

theorem map2 {L M : Type} {u v : NArr d K} {u' v' : NArr d L} (h : u.Transposed σ v) (h' : u'.Transposed σ v') (hs : u'.shape = u.shape) (f : K → L → M) :
    (u.map2 f u').Transposed σ (v.map2 f v') := by
  refine ⟨h.1, h.2.1, fun i hi => ?_⟩
  have hi' : InR v.shape i := hi
  have e : v'.shape = v.shape := funext fun a => by rw [h'.1, h.1, hs]
  show f (v.data i) (v'.data i) = f (u.data (original σ i)) (u'.data (original σ i))
  rw [h.2.2 i hi', h'.2.2 i (by rw [e]; exact hi')]

theorem shape_eq {L : Type} {u v : NArr d K} {u' v' : NArr d L} (h : u.Transposed σ v) (h' : u'.Transposed σ v') (hs : u'.shape = u.shape) : v'.shape = v.shape :=
  funext fun a => by rw [h'.1, h.1, hs]

end NArr.Transposed

namespace GridVariable.Relabelled

theorem periodic {u v : GridVariable d K} (h : u.Relabelled σ v) : u.Periodic ∧ v.Periodic := by
  obtain ⟨h1, h2, -, h4, h5, h6, h7, -⟩ := h
  refine ⟨⟨h2, fun a => ?_⟩, ⟨fun a => by rw [h1]; exact h2 _, fun a => ?_⟩⟩
  · have := h7 a
    rw [h5] at this ⊢
    exact ⟨rfl, this⟩
  · have := h7 (σ a)
    rw [h6, h4, h5] at *
    exact ⟨rfl, this⟩

theorem shape {u v : GridVariable d K} (h : u.Relabelled σ v) (a : Fin d) : v.array.shape a = u.array.shape (σ a) := h.2.2.2.2.2.1 a
theorem data {u v : GridVariable d K} (h : u.Relabelled σ v) (i : Idx d) (hi : InR v.array.shape i) : v.array.data i = u.array.data (original σ i) := h.2.2.2.2.2.2.2 i hi
theorem grid {u v : GridVariable d K} (h : u.Relabelled σ v) : v.array.grid = u.array.grid.permute σ := h.2.2.2.1
theorem offset {u v : GridVariable d K} (h : u.Relabelled σ v) (a : Fin d) : v.array.offset a = u.array.offset (σ a) := h.2.2.1 a

end GridVariable.Relabelled

/-- The transpose of an array. -/
def GridArray.relabel (σ : Equiv.Perm (Fin d)) (u : GridArray d K) : GridArray d K := ⟨⟨fun a => u.shape (σ a), fun i => u.data (original σ i)⟩, fun a => u.offset (σ a), u.grid.permute σ⟩

theorem GridArray.relabel_relabelled (σ : Equiv.Perm (Fin d)) (u : GridArray d K) (hs : u.shape = u.grid.shape) (hp : ∀ a, 0 < u.shape a) : u.Relabelled σ (u.relabel σ) :=
  ⟨fun _ => rfl, rfl, hs, fun _ => rfl, hp, fun _ _ => rfl⟩

/-- Every periodic variable has its relabelled copy. -/
theorem GridVariable.relabel_relabelled (σ : Equiv.Perm (Fin d)) (u : GridVariable d K) (h : u.Periodic) : u.Relabelled σ ⟨u.array.relabel σ, u.bc.permute σ⟩ :=
  ⟨rfl, h.1, u.array.relabel_relabelled σ (funext fun a => (h.2 a).1) fun a => (h.2 a).1 ▸ (h.2 a).2⟩

namespace GridArray.Relabelled
variable {u v : GridArray d K}

theorem gmap (h : u.Relabelled σ v) (f : K → K) : (gmap f u).Relabelled σ (gmap f v) := ⟨h.1, h.2.1, h.2.2.1, h.2.2.2.map f⟩

theorem gmap2 [Field K] [HasNan K] [DecidableEq K] {u' v' : GridArray d K} (h : u.Relabelled σ v) (h' : u'.Relabelled σ v') (f : K → K → K) :
    RelS (GridArray.Relabelled σ) (gmap2 f u u') (gmap2 f v v') := by
  intro r hr
  obtain ⟨e1, e2, e3, rfl⟩ := gmap2_eq_ok.1 hr
  have s : v.shape = v'.shape := h'.2.2.2.shape_eq h.2.2.2 e1
  have o : v.offset = v'.offset := funext fun a => by rw [h.1, h'.1, e2]
  have g : v.grid = v'.grid := by rw [h.2.1, h'.2.1, e3]
  exact ⟨_, gmap2_eq_ok.2 ⟨s, o, g, rfl⟩, h.1, h.2.1, h.2.2.1, h.2.2.2.map2 h'.2.2.2 e1.symm f⟩

/-- The original is the relabelled one with the labels changed back. -/
theorem symm (h : u.Relabelled σ v) : v.Relabelled σ.symm u := by
  have e : ∀ a, u.shape a = v.shape (σ.symm a) := fun a => by rw [h.2.2.2.1, Equiv.apply_symm_apply]
  refine ⟨fun a => by rw [h.1, Equiv.apply_symm_apply], ?_, ?_, e, fun a => by rw [h.2.2.2.1]; exact h.2.2.2.2.1 _, fun i hi => ?_⟩
  · rw [h.2.1]
    unfold Grid.permute
    simp
  · rw [h.2.1]
    funext a
    rw [h.2.2.2.1, h.2.2.1]
    rfl
  · rw [h.2.2.2.2.2 _ (original_inR e hi)]
    unfold original
    simp

/-- Reading one array through two labellings. -/
theorem unique {w : GridArray d K} (h : u.Relabelled σ v) (h' : u.Relabelled σ w) : v.offset = w.offset ∧ v.grid = w.grid ∧ v.shape = w.shape ∧ ∀ i, InR v.shape i → v.data i = w.data i := by
  have s : v.shape = w.shape := funext fun a => by rw [h.2.2.2.1, h'.2.2.2.1]
  exact ⟨funext fun a => by rw [h.1, h'.1], by rw [h.2.1, h'.2.1], s, fun i hi => by rw [h.2.2.2.2.2 i hi, h'.2.2.2.2.2 i (by rw [← s]; exact hi)]⟩

end GridArray.Relabelled

theorem GridVariable.Relabelled.symm {u v : GridVariable d K} (h : u.Relabelled σ v) : v.Relabelled σ.symm u := by
  refine ⟨?_, fun a => by rw [h.1]; exact h.2.1 _, h.2.2.symm⟩
  rw [h.1]
  unfold BC.permute
  simp

theorem VelocityRelabelled.symm {u v : Fin d → GridVariable d K} (h : VelocityRelabelled σ u v) : VelocityRelabelled σ.symm v u := fun a => by
  have := (h (σ.symm a)).symm
  rwa [Equiv.apply_symm_apply] at this

theorem TendencyRelabelled.symm {u v : Fin d → GridArray d K} (h : TendencyRelabelled σ u v) : TendencyRelabelled σ.symm v u := fun a => by
  have := (h (σ.symm a)).symm
  rwa [Equiv.apply_symm_apply] at this

section
variable [Field K] [HasNan K]

/-- Shifting along an axis and along its new label. -/
theorem GridVariable.Relabelled.shift {u v : GridVariable d K} (h : u.Relabelled σ v) (k : ℤ) (a : Fin d) (mode mode' : Padding) :
    RelS (fun r s => GridArray.Relabelled σ r s ∧ r.grid = u.array.grid ∧ r.shape = u.array.shape) (u.shift k (σ a) mode) (v.shift k a mode') := by
  obtain ⟨hu, hv⟩ := h.periodic
  unfold GridVariable.shift
  rw [BC.shift_periodic _ _ k (σ a) mode (hu.1 _) (hu.2 _).1 (hu.2 _).2, BC.shift_periodic _ _ k a mode' (hv.1 a) (hv.2 a).1 (hv.2 a).2]
  obtain ⟨h1, h2, h3, h4, h5, h6, h7, h8⟩ := h
  refine RelS.ok ⟨⟨fun b => ?_, h4, h5, h6, h7, fun i hi => ?_⟩, rfl, rfl⟩
  · show Function.update v.array.offset a _ b = Function.update u.array.offset (σ a) _ (σ b)
    rw [update_relabelled h3, h3]
  · show v.array.data (rollIdx v.array.shape a k i) = u.array.data (rollIdx u.array.shape (σ a) k (original σ i))
    rw [h8 _ (rollIdx_inR hi _ _), original_roll h6]

theorem GridArray.Relabelled.imposeBC {u v : GridArray d K} (h : u.Relabelled σ v) (bc : BC d K) (hbc : ∀ a, bc.types a = (.periodic, .periodic)) :
    RelS (GridVariable.Relabelled σ) (bc.imposeBC u) ((bc.permute σ).imposeBC v) := by
  obtain ⟨h3, h4, h5, h6, h7, h8⟩ := h
  rw [imposeBC_periodic bc u hbc fun a => by rw [h5], imposeBC_periodic _ v (BC.permute_periodic hbc) fun a => by rw [h6, h4, h5]; rfl]
  exact RelS.ok ⟨rfl, hbc, h3, h4, h5, h6, h7, h8⟩

end
end JaxCfd
