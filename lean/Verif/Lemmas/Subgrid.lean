import Verif.Model.Subgrid
import Verif.SpecSubgrid
import Verif.Lemmas.Interp
import Verif.Props.InitialConditions
import Verif.Lemmas.Equations

/-!
# Lemmas about the eddy viscosity models
-/

namespace JaxCfd
variable {d : ℕ}

theorem edge_comm (i j : Fin d) : edge i j = edge j i := by
  funext b; unfold edge; ring

theorem strain_comm (g : Grid d ℝ) (w : Fin d → Idx d → ℝ) (i j : Fin d) (p : Idx d) : strain g w i j p = strain g w j i p := by
  unfold strain; ring

/-- Minus the divergence of the stress `-2 ν s`. -/
noncomputable def eddyForce (g : Grid d ℝ) (nu s : Fin d → Fin d → Idx d → ℝ) (i : Fin d) (p : Idx d) : ℝ :=
  -∑ j, bwd g j (fun q => -2 * nu i j q * s i j q) p

theorem sum_fwd (g : Grid d ℝ) (a : Fin d) (f : Idx d → ℝ) : ∑ p ∈ box g.shape, fwd g a f p = 0 := by
  simp only [fwd, ← Finset.sum_div, Finset.sum_sub_distrib, sum_roll, sub_self, zero_div]

theorem sum_bwd (g : Grid d ℝ) (a : Fin d) (f : Idx d → ℝ) : ∑ p ∈ box g.shape, bwd g a f p = 0 := by
  simp only [bwd, ← Finset.sum_div, Finset.sum_sub_distrib, sum_roll, sub_self, zero_div]

theorem sum_mul_bwd (g : Grid d ℝ) (a : Fin d) (f h : Idx d → ℝ) :
    ∑ p ∈ box g.shape, f p * bwd g a h p = -∑ p ∈ box g.shape, fwd g a f p * h p := by
  simp only [fwd, bwd, ← mul_div_assoc, div_mul_eq_mul_div, ← Finset.sum_div, mul_sub, sub_mul, Finset.sum_sub_distrib]
  have : ∑ i ∈ box g.shape, f i * h (rollIdx g.shape a (-1) i) = ∑ i ∈ box g.shape, f (rollIdx g.shape a 1 i) * h i := by
    rw [← sum_roll g.shape a (-1) (fun i => f (rollIdx g.shape a 1 i) * h i)]
    refine Finset.sum_congr rfl fun i hi => ?_
    rw [rollIdx_add, neg_add_cancel, rollIdx_zero (mem_box.1 hi)]
  rw [this]
  ring

theorem sum_eddyForce (g : Grid d ℝ) (nu s : Fin d → Fin d → Idx d → ℝ) (i : Fin d) :
    ∑ p ∈ box g.shape, eddyForce g nu s i p = 0 := by
  simp only [eddyForce, Finset.sum_neg_distrib]
  rw [Finset.sum_comm]
  simp only [sum_bwd, Finset.sum_const_zero, neg_zero]

/-- The power of the eddy force, as a bilinear form. -/
theorem eddyForce_pair (g : Grid d ℝ) (nu : Fin d → Fin d → Idx d → ℝ) (w u : Fin d → Idx d → ℝ)
    (hsym : ∀ i j p, InR g.shape p → nu i j p = nu j i p) :
    ∑ i, ∑ p ∈ box g.shape, w i p * eddyForce g nu (strain g u) i p =
      -2 * ∑ i, ∑ j, ∑ p ∈ box g.shape, nu i j p * strain g w i j p * strain g u i j p := by
  have h1 : ∀ i, ∑ p ∈ box g.shape, w i p * eddyForce g nu (strain g u) i p =
      ∑ j, ∑ p ∈ box g.shape, fwd g j (w i) p * (-2 * nu i j p * strain g u i j p) := by
    intro i
    simp only [eddyForce, mul_neg, Finset.mul_sum, Finset.sum_neg_distrib]
    rw [Finset.sum_comm, ← Finset.sum_neg_distrib]
    refine Finset.sum_congr rfl fun j _ => ?_
    rw [sum_mul_bwd g j (w i) (fun q => -2 * nu i j q * strain g u i j q), neg_neg]
  have h2 : ∑ i, ∑ j, ∑ p ∈ box g.shape, fwd g j (w i) p * (-2 * nu i j p * strain g u i j p) =
      ∑ i, ∑ j, ∑ p ∈ box g.shape, fwd g i (w j) p * (-2 * nu i j p * strain g u i j p) := by
    conv_lhs => rw [Finset.sum_comm]
    refine Finset.sum_congr rfl fun i _ => Finset.sum_congr rfl fun j _ => Finset.sum_congr rfl fun p hp => ?_
    rw [hsym j i p (mem_box.1 hp), strain_comm g u j i]
  simp only [h1]
  have h3 : (2 : ℝ) * ∑ i, ∑ j, ∑ p ∈ box g.shape, fwd g j (w i) p * (-2 * nu i j p * strain g u i j p) =
      ∑ i, ∑ j, ∑ p ∈ box g.shape, fwd g j (w i) p * (-2 * nu i j p * strain g u i j p) +
      ∑ i, ∑ j, ∑ p ∈ box g.shape, fwd g i (w j) p * (-2 * nu i j p * strain g u i j p) := by rw [← h2]; ring
  have h4 : ∑ i, ∑ j, ∑ p ∈ box g.shape, fwd g j (w i) p * (-2 * nu i j p * strain g u i j p) +
      ∑ i, ∑ j, ∑ p ∈ box g.shape, fwd g i (w j) p * (-2 * nu i j p * strain g u i j p) =
      -4 * ∑ i, ∑ j, ∑ p ∈ box g.shape, nu i j p * strain g w i j p * strain g u i j p := by
    simp only [Finset.mul_sum, ← Finset.sum_add_distrib]
    refine Finset.sum_congr rfl fun i _ => Finset.sum_congr rfl fun j _ => Finset.sum_congr rfl fun p _ => ?_
    unfold strain
    ring
  linarith

section
variable [HasNan ℝ]

theorem hasAllPeriodic_ofFn {v : Fin d → GridVariable d ℝ} :
    hasAllPeriodic (List.ofFn v) = true ↔ ∀ a b, ((v a).bc.types b).1 = .periodic := by
  unfold hasAllPeriodic isPeriodicBC
  simp [List.all_eq_true, List.mem_ofFn]

theorem PeriodicField.allPeriodic {g : Grid d ℝ} {v : Fin d → GridVariable d ℝ} (h : PeriodicField g v) :
    hasAllPeriodic (List.ofFn v) = true := hasAllPeriodic_ofFn.2 fun a b => by rw [h.2 a]; rfl

theorem PeriodicField.var {g : Grid d ℝ} {v : Fin d → GridVariable d ℝ} (h : PeriodicField g v) (hs : ∀ a, 0 < g.shape a) (a : Fin d) :
    (v a).Periodic :=
  ⟨fun b => by rw [h.2 a]; rfl, fun b => by rw [(h.1 a).1, (h.1 a).2.1]; exact ⟨rfl, hs b⟩⟩

theorem PeriodicField.grid_ok {g : Grid d ℝ} {v : Fin d → GridVariable d ℝ} (h : PeriodicField g v) (hd : d ≠ 0) :
    consistentGrid (List.ofFn fun a => (v a).array) = .ok g := by
  refine uniqueOr_eq_ok.2 ⟨by rw [Ne, List.ofFn_eq_nil_iff]; exact hd, fun x hx => ?_⟩
  obtain ⟨a, rfl⟩ := List.mem_ofFn.1 hx
  exact (h.1 a).1

theorem PeriodicField.fwd_ok {g : Grid d ℝ} {v : Fin d → GridVariable d ℝ} (h : PeriodicField g v) (hs : ∀ a, 0 < g.shape a) (i j : Fin d) :
    forwardDifference (v i) j = .ok ⟨⟨g.shape, fwd g j (v i).array.data⟩, edge i j, g⟩ := by
  rw [forwardDifference_periodic (h.var hs i)]
  congr 1
  refine GridArray.ext' (h.1 i).2.1 ?_ ?_ (h.1 i).1
  · funext p
    have e1 : (v i).array.shape = g.shape := (h.1 i).2.1
    have e2 : (v i).array.grid = g := (h.1 i).1
    simp only [fwdP, fwd, e1, e2]
  · funext b
    by_cases hb : b = j
    · subst hb
      simp only [Function.update_self, (h.1 i).2.2, edge]
      split_ifs <;> norm_num
    · simp only [Function.update_of_ne hb, (h.1 i).2.2, edge, hb, if_false]
      split_ifs <;> norm_num

/-- The strain tensor of a periodic field. -/
theorem strainRate_ok {g : Grid d ℝ} {v : Fin d → GridVariable d ℝ} (h : PeriodicField g v) (hs : ∀ a, 0 < g.shape a) :
    strainRate v = .ok (strainTensor g fun a => (v a).array.data) := by
  unfold strainRate
  refine seqFin_ok _ (fun i j => (⟨⟨g.shape, strain g (fun a => (v a).array.data) i j⟩, edge i j, g⟩ : GridArray d ℝ)) fun i => ?_
  refine seqFin_ok _ (fun j => (⟨⟨g.shape, strain g (fun a => (v a).array.data) i j⟩, edge i j, g⟩ : GridArray d ℝ)) fun j => ?_
  rw [h.fwd_ok hs i j, h.fwd_ok hs j i, Except.bind_ok, Except.bind_ok, gmap2_ok (by rfl) (by exact edge_comm i j) (by rfl), Except.bind_ok]
  rfl

theorem eddyStress_eq_ok {nu s r : GridArray d ℝ} : eddyStress nu s = .ok r ↔
    s.offset = nu.offset ∧ s.grid = nu.grid ∧ s.shape = nu.shape ∧
      r = ⟨⟨nu.shape, fun i => -2 * nu.data i * s.data i⟩, nu.offset, nu.grid⟩ := by
  unfold eddyStress
  by_cases h1 : s.offset ≠ nu.offset ∨ s.grid ≠ nu.grid
  · rw [if_pos h1]
    constructor
    · intro h; cases h
    · rintro ⟨a, b, -⟩; exact absurd h1 (by simp [a, b])
  · rw [if_neg h1]
    push Not at h1
    by_cases h2 : s.shape ≠ nu.shape
    · rw [if_pos h2]
      constructor
      · intro h; cases h
      · rintro ⟨-, -, a, -⟩; exact absurd a h2
    · rw [if_neg h2]
      push Not at h2
      constructor
      · intro h; exact ⟨h1.1, h1.2, h2, (Except.ok.inj h).symm⟩
      · rintro ⟨-, -, -, rfl⟩; rfl

/-- One row of the divergence of a stress tensor living on the edges. -/
theorem divergence_edge {g : Grid d ℝ} (hd : d ≠ 0) (hs : ∀ a, 0 < g.shape a) (i : Fin d) (t : Fin d → Idx d → ℝ) :
    divergence (List.ofFn fun j => (⟨⟨⟨g.shape, t j⟩, edge i j, g⟩, periodicBC d⟩ : GridVariable d ℝ)) =
      .ok ⟨⟨g.shape, fun p => ∑ j, bwd g j (t j) p⟩, g.cellFaces i, g⟩ := by
  refine (divergence_periodic (fun j => ⟨fun b => rfl, fun b => ⟨rfl, hs b⟩⟩)).2 ⟨hd, fun j => ⟨rfl, ?_, rfl⟩, rfl⟩
  funext b
  by_cases hb : b = j
  · subst hb
    simp only [Function.update_self, edge, Grid.cellFaces]
    split_ifs <;> norm_num
  · simp only [Function.update_of_ne hb, edge, Grid.cellFaces, hb, if_false]
    split_ifs <;> norm_num

/-- What `evm_model` returns for a periodic field. -/
theorem evmModel_eq_ok {g : Grid d ℝ} {v : Fin d → GridVariable d ℝ} (hd : d ≠ 0) (h : PeriodicField g v) (hs : ∀ a, 0 < g.shape a)
    {visc : ViscosityFn d} {r : Fin d → GridArray d ℝ} : evmModel visc v = .ok r ↔
      ∃ N : Tensor d, visc (strainTensor g fun a => (v a).array.data) v = .ok N ∧
        (∀ i j, (N i j).shape = g.shape ∧ (N i j).offset = edge i j ∧ (N i j).grid = g) ∧
        r = fun i => ⟨⟨g.shape, eddyForce g (fun i j => (N i j).data) (strain g fun a => (v a).array.data) i⟩, g.cellFaces i, g⟩ := by
  unfold evmModel
  rw [if_neg (by rw [h.allPeriodic]; decide), h.grid_ok hd, Except.bind_ok, strainRate_ok h hs, Except.bind_ok]
  have key : ∀ N : Tensor d, (∀ i j, (N i j).shape = g.shape ∧ (N i j).offset = edge i j ∧ (N i j).grid = g) →
      ((seqFin fun i => seqFin fun j => eddyStress (N i j)
          (⟨⟨g.shape, strain g (fun a => (v a).array.data) i j⟩, edge i j, g⟩ : GridArray d ℝ)) >>= fun tau =>
        seqFin fun i => do
          let r ← divergence (List.ofFn fun j => (⟨tau i j, periodicBC d⟩ : GridVariable d ℝ))
          return gmap (fun x => -x) r) =
      .ok fun i => ⟨⟨g.shape, eddyForce g (fun i j => (N i j).data) (strain g fun a => (v a).array.data) i⟩, g.cellFaces i, g⟩ := by
    intro N hN
    rw [seqFin_ok _ (fun i j => (⟨⟨g.shape, fun p => -2 * (N i j).data p * strain g (fun a => (v a).array.data) i j p⟩, edge i j, g⟩ :
      GridArray d ℝ)) fun i => seqFin_ok _ (fun j => (⟨⟨g.shape, fun p => -2 * (N i j).data p *
        strain g (fun a => (v a).array.data) i j p⟩, edge i j, g⟩ : GridArray d ℝ)) fun j => eddyStress_eq_ok.2
        ⟨(hN i j).2.1.symm, (hN i j).2.2.symm, (hN i j).1.symm, by rw [(hN i j).1, (hN i j).2.1, (hN i j).2.2]⟩, Except.bind_ok]
    refine seqFin_ok _ (fun i => (⟨⟨g.shape, eddyForce g (fun i j => (N i j).data) (strain g fun a => (v a).array.data) i⟩,
      g.cellFaces i, g⟩ : GridArray d ℝ)) fun i => ?_
    rw [divergence_edge hd hs i (fun j p => -2 * (N i j).data p * strain g (fun a => (v a).array.data) i j p), Except.bind_ok]
    rfl
  constructor
  · intro hr
    obtain ⟨N, hN, hr⟩ := Except.bind_eq_ok.1 hr
    have hlay : ∀ i j, (N i j).shape = g.shape ∧ (N i j).offset = edge i j ∧ (N i j).grid = g := by
      obtain ⟨tau, ht, -⟩ := Except.bind_eq_ok.1 hr
      intro i j
      have := (seqFin_eq_ok _ _).1 ((seqFin_eq_ok _ _).1 ht i) j
      obtain ⟨a, b, c, -⟩ := eddyStress_eq_ok.1 this
      exact ⟨c.symm, a.symm, b.symm⟩
    refine ⟨N, hN, hlay, ?_⟩
    have := (key N hlay).symm.trans hr
    exact (Except.ok.inj this).symm
  · rintro ⟨N, hN, hlay, rfl⟩
    rw [hN, Except.bind_ok]
    exact key N hlay

/-- Interpolation along all axes in turn. -/
noncomputable def lerpAll (s : Fin d → ℕ) (δ : Fin d → ℚ) (f : Idx d → ℝ) : Idx d → ℝ :=
  (List.finRange d).foldl (fun f a => lerp ℝ s a (δ a) f) f

theorem linear_fold {c : GridVariable d ℝ} (h : c.Periodic) (o : Fin d → ℚ) :
    linear c o = .ok ⟨⟨⟨c.array.shape, lerpAll c.array.shape (fun a => o a - c.array.offset a) c.array.data⟩, o, c.array.grid⟩, c.bc⟩ := by
  have key : ∀ (l : List (Fin d)) (c : GridVariable d ℝ), c.Periodic → l.Nodup →
      l.foldlM (fun c a => linearAlongAxis c (o a) a) c =
        .ok ⟨⟨⟨c.array.shape, l.foldl (fun f a => lerp ℝ c.array.shape a (o a - c.array.offset a) f) c.array.data⟩,
          fun a => if a ∈ l then o a else c.array.offset a, c.array.grid⟩, c.bc⟩ := by
    intro l
    induction l with
    | nil => intro c _ _; simp [Except.pure_eq_ok]
    | cons a l ih =>
      intro c hper hl
      rw [List.foldlM_cons, linearAlongAxis_periodic hper, Except.bind_ok,
        ih ⟨⟨⟨c.array.shape, lerp ℝ c.array.shape a (o a - c.array.offset a) c.array.data⟩,
        Function.update c.array.offset a (o a), c.array.grid⟩, c.bc⟩ (hper.mk' (fun _ => rfl) rfl rfl)
        (List.nodup_cons.1 hl).2]
      have hf : l.foldl (fun f b => lerp ℝ c.array.shape b (o b - Function.update c.array.offset a (o a) b) f)
            (lerp ℝ c.array.shape a (o a - c.array.offset a) c.array.data) =
          l.foldl (fun f b => lerp ℝ c.array.shape b (o b - c.array.offset b) f)
            (lerp ℝ c.array.shape a (o a - c.array.offset a) c.array.data) := by
        refine List.foldl_ext _ _ _ fun f b hb => ?_
        have hne : b ≠ a := by rintro rfl; exact (List.nodup_cons.1 hl).1 hb
        rw [Function.update_of_ne hne]
      have ho : (fun b => if b ∈ l then o b else Function.update c.array.offset a (o a) b) =
          fun b => if b ∈ a :: l then o b else c.array.offset b := by
        funext b
        by_cases hb : b = a
        · subst hb; simp
        · simp [hb]
      dsimp only
      rw [hf, ho, List.foldl_cons]
  unfold linear
  rw [key _ c h (List.nodup_finRange d)]
  simp [lerpAll]

theorem lerpAll_smul (s : Fin d → ℕ) (δ : Fin d → ℚ) (k : ℝ) (f : Idx d → ℝ) :
    lerpAll s δ (fun i => k * f i) = fun i => k * lerpAll s δ f i := by
  have step : ∀ (a : Fin d) (f : Idx d → ℝ), lerp ℝ s a (δ a) (fun i => k * f i) = fun i => k * lerp ℝ s a (δ a) f i := by
    intro a f
    funext i
    unfold lerp
    split_ifs <;> ring
  unfold lerpAll
  generalize List.finRange d = l
  induction l generalizing f with
  | nil => rfl
  | cons a l ih => rw [List.foldl_cons, step, ih, List.foldl_cons]

theorem lerpAll_nonneg (s : Fin d → ℕ) (δ : Fin d → ℚ) (f : Idx d → ℝ) (hf : ∀ i, InR s i → 0 ≤ f i) (i : Idx d) (hi : InR s i) :
    0 ≤ lerpAll s δ f i := by
  have step : ∀ (a : Fin d) (f : Idx d → ℝ), (∀ i, InR s i → 0 ≤ f i) → ∀ i, InR s i → 0 ≤ lerp ℝ s a (δ a) f i := by
    intro a f hf i hi
    unfold lerp
    have h1 : (0 : ℝ) ≤ ((floorWeight (δ a) : ℚ) : ℝ) := by
      have := Int.le_ceil (δ a)
      exact_mod_cast sub_nonneg.2 this
    have h2 : (0 : ℝ) ≤ (((1 - floorWeight (δ a)) : ℚ) : ℝ) := by
      have := Int.ceil_lt_add_one (δ a)
      have h : (0 : ℚ) ≤ 1 - floorWeight (δ a) := by unfold floorWeight; linarith
      exact_mod_cast h
    split_ifs
    · exact hf i hi
    · exact hf _ (rollIdx_inR hi _ _)
    · exact add_nonneg (mul_nonneg h1 (hf _ (rollIdx_inR hi _ _))) (mul_nonneg h2 (hf _ (rollIdx_inR hi _ _)))
  unfold lerpAll
  generalize List.finRange d = l
  induction l generalizing f with
  | nil => exact hf i hi
  | cons a l ih => exact ih _ (step a f hf)

end
end JaxCfd
