import Verif.SpecTranslate
import Verif.Lemmas.Seq
import Verif.Lemmas.Boundaries
import Verif.Lemmas.Advection
import Mathlib.Data.Int.ModEq

/-!
# Translations of periodic arrays: relational lemmas

Two runs of the same function on related arguments either raise the same exception or return related results.
-/

namespace JaxCfd
variable {d : ℕ} {K : Type}

namespace RelE
variable {α β γ δ : Type} {R : α → β → Prop} {S : γ → δ → Prop}

theorem ok {a : α} {b : β} (h : R a b) : RelE R (.ok a) (.ok b) := ⟨(fun e he => nomatch he), fun r hr => ⟨b, rfl, by cases hr; exact h⟩⟩

theorem error (e : Err) : RelE R (.error e : Except Err α) (.error e : Except Err β) := ⟨fun e' h => by cases h; rfl, (fun r h => nomatch h)⟩

theorem bind {x : Except Err α} {y : Except Err β} {f : α → Except Err γ} {g : β → Except Err δ} (h : RelE R x y) (hf : ∀ a b, R a b → RelE S (f a) (g b)) :
    RelE S (x >>= f) (y >>= g) := by
  cases x with
  | error e =>
      rw [h.1 e rfl]
      exact error e
  | ok a =>
      obtain ⟨b, hb, hab⟩ := h.2 a rfl
      rw [hb]
      exact hf a b hab

theorem mono {R' : α → β → Prop} {x : Except Err α} {y : Except Err β} (h : RelE R x y) (hR : ∀ a b, R a b → R' a b) : RelE R' x y :=
  ⟨h.1, fun r hr => by obtain ⟨s, hs, h'⟩ := h.2 r hr; exact ⟨s, hs, hR _ _ h'⟩⟩

/-- The same value, related to itself. -/
theorem same {R : α → α → Prop} (x : Except Err α) (h : ∀ a, x = .ok a → R a a) : RelE R x x := ⟨fun _ h => h, fun r hr => ⟨r, hr, h r hr⟩⟩

theorem eq {x y : Except Err α} (h : x = y) : RelE (fun a b => b = a) x y := by
  rw [h]
  exact same y fun _ _ => rfl

theorem seqFin {n : ℕ} {R : Fin n → α → β → Prop} {f : Fin n → Except Err α} {g : Fin n → Except Err β} (h : ∀ a, RelE (R a) (f a) (g a)) :
    RelE (fun u v => ∀ a, R a (u a) (v a)) (JaxCfd.seqFin f) (JaxCfd.seqFin g) := by
  induction n with
  | zero => exact ok fun a => a.elim0
  | succ n ih =>
      unfold JaxCfd.seqFin
      refine bind (h 0) fun a b hab => bind (ih fun i => h i.succ) fun r s hrs => ok fun i => ?_
      refine Fin.cases ?_ (fun i => ?_) i
      · exact hab
      · exact hrs i

theorem foldlM {ι : Type} {f : α → ι → Except Err α} {g : β → ι → Except Err β} (l : List ι) (h : ∀ i ∈ l, ∀ a b, R a b → RelE R (f a i) (g b i)) {a : α} {b : β} (hab : R a b) :
    RelE R (l.foldlM f a) (l.foldlM g b) := by
  induction l generalizing a b with
  | nil => exact ok hab
  | cons i l ih =>
      rw [List.foldlM_cons, List.foldlM_cons]
      exact bind (h i (by simp) a b hab) fun a' b' h' => ih (fun i hi => h i (by simp [hi])) h'

theorem foldlM2 {ι κ : Type} {Q : ι → κ → Prop} {f : α → ι → Except Err α} {g : β → κ → Except Err β} {l : List ι} {m : List κ} (hl : List.Forall₂ Q l m)
    (h : ∀ i j, Q i j → ∀ a b, R a b → RelE R (f a i) (g b j)) {a : α} {b : β} (hab : R a b) : RelE R (l.foldlM f a) (m.foldlM g b) := by
  induction hl generalizing a b with
  | nil => exact ok hab
  | cons hij _ ih =>
      rw [List.foldlM_cons, List.foldlM_cons]
      exact bind (h _ _ hij a b hab) fun a' b' h' => ih h'

theorem mapM {l : List α} {m : List β} (hl : List.Forall₂ R l m) {f : α → Except Err γ} {g : β → Except Err δ} (h : ∀ a b, R a b → RelE S (f a) (g b)) :
    RelE (List.Forall₂ S) (l.mapM f) (m.mapM g) := by
  induction hl with
  | nil => exact ok List.Forall₂.nil
  | cons hij _ ih =>
      rw [List.mapM_cons, List.mapM_cons]
      exact bind (h _ _ hij) fun a b hab => bind ih fun r s hrs => ok (List.Forall₂.cons hab hrs)

end RelE

theorem uniqueOr_congr {α β : Type} [DecidableEq β] {err : Err} {f : α → β} {l m : List α} (h : List.Forall₂ (fun a b => f b = f a) l m) : uniqueOr err f m = uniqueOr err f l := by
  unfold uniqueOr
  have : m.map f = l.map f := by
    induction h with
    | nil => rfl
    | cons h _ ih => rw [List.map_cons, List.map_cons, h, ih]
  rw [this]

theorem forall₂_ofFn {α β : Type} {R : α → β → Prop} {n : ℕ} {f : Fin n → α} {g : Fin n → β} (h : ∀ a, R (f a) (g a)) : List.Forall₂ R (List.ofFn f) (List.ofFn g) := by
  induction n with
  | zero => simp
  | succ n ih =>
      rw [List.ofFn_succ, List.ofFn_succ]
      exact List.Forall₂.cons (h 0) (ih fun a => h a.succ)

/-! ## Translated arrays -/

theorem moved_inR {s : Fin d → ℕ} (hs : ∀ a, 0 < s a) (t i : Idx d) : InR s (moved s t i) :=
  fun a => ⟨Int.emod_nonneg _ (by have := hs a; omega), Int.emod_lt_of_pos _ (by have := hs a; omega)⟩

theorem moved_roll (s : Fin d → ℕ) (t i : Idx d) (ax : Fin d) (k : ℤ) : moved s t (rollIdx s ax k i) = rollIdx s ax k (moved s t i) := by
  funext a
  unfold moved rollIdx
  by_cases h : a = ax
  · subst h
    simp only [Function.update_self, Int.emod_add_emod]
    congr 1
    ring
  · simp only [Function.update_of_ne h]

theorem GridVariable.Translated.periodic {t : Idx d} {u v : GridVariable d K} (h : u.Translated t v) : u.Periodic ∧ v.Periodic := by
  obtain ⟨h1, h2, h3, h4, h5, h6, h7, h8⟩ := h
  refine ⟨⟨h2, fun a => ?_⟩, ⟨fun a => by rw [h1]; exact h2 a, fun a => ?_⟩⟩
  · have := h7 a
    rw [h5] at this ⊢
    exact ⟨rfl, this⟩
  · have := h7 a
    rw [h6, h4, h5] at *
    exact ⟨rfl, this⟩

/-- Every periodic variable has a translate. -/
def GridArray.translate (t : Idx d) (u : GridArray d K) : GridArray d K := ⟨⟨u.shape, fun i => u.data (moved u.shape t i)⟩, u.offset, u.grid⟩

theorem GridVariable.translate_translated (t : Idx d) (u : GridVariable d K) (h : u.Periodic) : u.Translated t ⟨u.array.translate t, u.bc⟩ :=
  ⟨rfl, h.1, rfl, rfl, funext fun a => (h.2 a).1, rfl, fun a => (h.2 a).1 ▸ (h.2 a).2, fun _ _ => rfl⟩

theorem NArr.Translated.map {L : Type} {t : Idx d} {u v : NArr d K} (h : u.Translated t v) (f : K → L) : (u.map f).Translated t (v.map f) :=
  ⟨h.1, h.2.1, fun i hi => congrArg f (h.2.2 i hi)⟩

theorem NArr.Translated.map2 {L M : Type} {t : Idx d} {u v : NArr d K} {u' v' : NArr d L} (h : u.Translated t v) (h' : u'.Translated t v') (hs : u'.shape = u.shape) (f : K → L → M) :
    (u.map2 f u').Translated t (v.map2 f v') := by
  refine ⟨h.1, h.2.1, fun i hi => ?_⟩
  have e := h'.2.2 i (by rw [hs]; exact hi)
  show f (v.data i) (v'.data i) = f (u.data (moved u.shape t i)) (u'.data (moved u.shape t i))
  rw [h.2.2 i hi, e, hs]

section
variable {t : Idx d} {u v : GridArray d K}

theorem GridArray.Translated.gmap (h : u.Translated t v) (f : K → K) : (gmap f u).Translated t (gmap f v) :=
  ⟨h.1, h.2.1, h.2.2.1, h.2.2.2.map f⟩

theorem GridArray.Translated.shape (h : u.Translated t v) : v.shape = u.shape := h.2.2.2.1

theorem GridArray.Translated.gmap2 [DecidableEq K] {u' v' : GridArray d K} (h : u.Translated t v) (h' : u'.Translated t v') (f : K → K → K) :
    RelE (GridArray.Translated t) (gmap2 f u u') (gmap2 f v v') := by
  unfold JaxCfd.gmap2
  rw [h.shape, h'.shape]
  by_cases hs : u.shape = u'.shape
  · rw [if_neg (not_not.2 hs), if_neg (not_not.2 hs)]
    have e1 : consistentOffset [v, v'] = consistentOffset [u, u'] := uniqueOr_congr (.cons h.1 (.cons h'.1 .nil))
    have e2 : consistentGrid [v, v'] = consistentGrid [u, u'] := uniqueOr_congr (.cons h.2.1 (.cons h'.2.1 .nil))
    rw [e1, e2]
    refine RelE.bind (RelE.eq rfl) fun o o' ho => RelE.bind (R := fun g g' => g' = g ∧ consistentGrid [u, u'] = .ok g) (RelE.same _ fun g hg => ⟨rfl, hg⟩) fun g g' hg => RelE.ok ?_
    subst ho
    obtain ⟨rfl, hg⟩ := hg
    refine ⟨rfl, rfl, ?_, h.2.2.2.map2 h'.2.2.2 hs.symm f⟩
    have : g' = u.grid := ((uniqueOr_eq_ok.1 hg).2 u (by simp)).symm
    rw [this]
    exact h.2.2.1
  · rw [if_pos hs, if_pos hs]
    exact RelE.error _

end

section
variable [Field K] [HasNan K]

theorem GridVariable.Translated.shift {t : Idx d} {u v : GridVariable d K} (h : u.Translated t v) (k : ℤ) (ax : Fin d) (mode : Padding) :
    RelE (GridArray.Translated t) (u.shift k ax mode) (v.shift k ax mode) := by
  obtain ⟨hu, hv⟩ := h.periodic
  unfold GridVariable.shift
  rw [BC.shift_periodic _ _ k ax mode (hu.1 ax) (hu.2 ax).1 (hu.2 ax).2, BC.shift_periodic _ _ k ax mode (hv.1 ax) (hv.2 ax).1 (hv.2 ax).2]
  obtain ⟨h1, h2, h3, h4, h5, h6, h7, h8⟩ := h
  refine RelE.ok ⟨by simp [h3], h4, h5, h6, h7, fun i hi => ?_⟩
  show v.array.data (rollIdx v.array.shape ax k i) = u.array.data (rollIdx u.array.shape ax k (moved u.array.shape t i))
  rw [h6, h8 _ (rollIdx_inR hi _ _), moved_roll]

theorem GridArray.Translated.shift {t : Idx d} {u v : GridArray d K} (h : u.Translated t v) (bc : BC d K) (hbc : ∀ a, bc.types a = (.periodic, .periodic)) (k : ℤ) (ax : Fin d) (mode : Padding) :
    RelE (GridArray.Translated t) (bc.shift u k ax mode) (bc.shift v k ax mode) :=
  GridVariable.Translated.shift (u := ⟨u, bc⟩) (v := ⟨v, bc⟩) ⟨rfl, hbc, h⟩ k ax mode

theorem GridArray.Translated.imposeBC {t : Idx d} {u v : GridArray d K} (h : u.Translated t v) (bc : BC d K) (hbc : ∀ a, bc.types a = (.periodic, .periodic)) :
    RelE (GridVariable.Translated t) (bc.imposeBC u) (bc.imposeBC v) := by
  obtain ⟨h3, h4, h5, h6, h7, h8⟩ := h
  rw [imposeBC_periodic bc u hbc fun a => by rw [h5], imposeBC_periodic bc v hbc fun a => by rw [h6, h4, h5]]
  exact RelE.ok ⟨rfl, hbc, h3, h4, h5, h6, h7, h8⟩

end
end JaxCfd
