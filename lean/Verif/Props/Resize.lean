import Verif.Lemmas.Resize
import Verif.Props.ArrayUtils
import Verif.Props.Pressure

/-! # C45: downsampling of staggered velocities -/

set_option linter.unusedSectionVars false

namespace JaxCfd
variable {d : ℕ} {K : Type} [Field K] [HasNan K] [DecidableEq K]

/-- The destination grid coarsens the source grid by the factor `f`. -/
def Coarsens (source destination : Grid d K) (f : ℕ) : Prop :=
  destination.domain = source.domain ∧ f ≠ 0 ∧ ∀ a, source.shape a = destination.shape a * f

/-- **C45** The component along `a`: the coarse face `q` carries the mean of the `f^(d-1)` fine faces that make it up, those on the
upper side of the last fine cell of the coarse cell. -/
theorem C45_component (u : NArr d K) (a : Fin d) (f : ℕ) (hf : f ≠ 0) (m : Fin d → ℕ) (hm : ∀ b, u.shape b = m b * f) :
    ∃ w, downsampleComponent u a f = .ok w ∧ w.shape = m ∧ ∀ q : Idx d, InR m q →
      w.data q = (∑ r ∈ box (fun b => if b = a then 1 else f), u.data fun b => if b = a then q b * f + (f - 1) else q b * f + r b) /
        (f : K) ^ (d - 1) := by
  obtain ⟨w, hw, hd⟩ := downsampleComponent_ok u a f hf m hm
  refine ⟨_, hw, rfl, fun q hq => ?_⟩
  dsimp only
  rw [hd q hq]
  have hblock : (fun j => if j = a then 1 else f) = Function.update (fun _ : Fin d => f) a 1 := by
    funext j
    by_cases h : j = a
    · subst h; simp
    · simp [h]
  rw [hblock]
  rfl

/-- Sizes that are no multiple of the factor (across the direction) are rejected. -/
theorem C45_rejects (u : NArr d K) (a b : Fin d) (hab : b ≠ a) (f : ℕ) (hf : f ≠ 0) (h : ¬ f ∣ u.shape b) :
    downsampleComponent u a f = .error .value := by
  unfold downsampleComponent
  rw [if_neg hf]
  apply C42_rejects _ _ _ _ b
  · simp only [if_neg hab, sliceAx, Function.update_of_ne hab]
    exact h
  · intro c
    split_ifs <;> omega

variable [CharZero K]

theorem factor_eq (source destination : Grid d K) (f : ℕ) (h : Coarsens source destination f) (a : Fin d)
    (hpos : 0 < destination.shape a) (hdom : (source.domain a).2 ≠ (source.domain a).1) : destination.step a = f * source.step a := by
  unfold Grid.step
  rw [h.1, h.2.2 a, Nat.cast_mul]
  have h1 : (destination.shape a : K) ≠ 0 := by exact_mod_cast hpos.ne'
  have h2 : (f : K) ≠ 0 := by exact_mod_cast h.2.1
  field_simp

theorem downsample_ok (source destination : Grid d K) (f : ℕ) (hd : d ≠ 0) (hc : Coarsens source destination f)
    (hdom : ∀ a, (source.domain a).2 ≠ (source.domain a).1) (v : Fin d → GridVariable d K) (hv : VelocityField source v) :
    ∃ w, downsampleStaggeredVelocity source destination v = .ok w ∧ VelocityField destination w ∧
      (∀ a, (w a).bc = (v a).bc) ∧
      ∀ a (q : Idx d), InR destination.shape q → (w a).array.data q =
        (∑ r ∈ box (Function.update (fun _ => f) a 1), (v a).array.data (faceIdx f a q r)) / (f : K) ^ (d - 1) := by
  have hpos : ∀ a, 0 < destination.shape a := by
    intro a
    have := hv.1 a
    rw [hc.2.2 a] at this
    exact Nat.pos_of_mul_pos_right this
  have h0 : 0 < d := Nat.pos_of_ne_zero hd
  have hstep : ∀ a, source.step a ≠ 0 := by
    intro a
    unfold Grid.step
    exact div_ne_zero (sub_ne_zero.2 (hdom a)) (by exact_mod_cast (hv.1 a).ne')
  have hratio : destination.step ⟨0, h0⟩ / source.step ⟨0, h0⟩ = f := by
    rw [factor_eq source destination f hc _ (hpos _) (hdom _)]
    exact mul_div_cancel_right₀ _ (hstep _)
  have hex : ∃ n : ℕ, destination.step ⟨0, h0⟩ / source.step ⟨0, h0⟩ = n := ⟨f, hratio⟩
  have hch : hex.choose = f := by
    have := hratio.symm.trans hex.choose_spec
    exact_mod_cast this.symm
  have hcomp := fun a => downsampleComponent_ok (v a).array.toNArr a f hc.2.1 destination.shape
    (fun b => by rw [(hv.2.1 a).2.1]; exact hc.2.2 b)
  choose w hw hwd using hcomp
  refine ⟨fun a => ⟨⟨⟨destination.shape, w a⟩, (v a).array.offset, destination⟩, (v a).bc⟩, ?_, ?_, fun _ => rfl, hwd⟩
  · unfold downsampleStaggeredVelocity
    rw [dif_pos h0, if_neg (by simp [hc.1]), dif_pos hex]
    refine seqFin_ok _ _ fun a => ?_
    rw [if_neg (by simp [(hv.2.1 a).1]), hch, hw a]
    rfl
  · exact ⟨hpos, fun a => ⟨rfl, rfl, (hv.2.1 a).2.2⟩, hv.2.2⟩

/-- **C45** Downsampling commutes with the divergence: for any staggered velocity (periodic axes, or closed by walls with any
boundary values) the divergence of the downsampled velocity is the block mean of the fine divergence.  The result is again a
velocity field, on the destination grid, with the boundary conditions of the source. -/
theorem C45_divergence (source destination : Grid d K) (f : ℕ) (hd : d ≠ 0) (hc : Coarsens source destination f)
    (hdom : ∀ a, (source.domain a).2 ≠ (source.domain a).1) (v : Fin d → GridVariable d K) (hv : VelocityField source v) :
    ∃ w divV divW, downsampleStaggeredVelocity source destination v = .ok w ∧ VelocityField destination w ∧
      (∀ a, (w a).bc = (v a).bc) ∧
      divergence (List.ofFn v) = .ok divV ∧ divergence (List.ofFn w) = .ok divW ∧
      ∃ coarse, blockReduce divV.toNArr (fun _ => f) meanN = .ok coarse ∧ divW.toNArr.Eqv coarse := by
  obtain ⟨w, hw, hfield, hbc, hdata⟩ := downsample_ok source destination f hd hc hdom v hv
  obtain ⟨dv, hdv, hdv'⟩ := hv.divergence_eq hd
  obtain ⟨dw, hdw, hdw'⟩ := hfield.divergence_eq hd
  have hf := hc.2.1
  obtain ⟨y, hy, hyq⟩ := blockReduce_ok (⟨source.shape, dv⟩ : NArr d K) (fun _ => f) meanN (fun _ => by omega)
    (fun a => by dsimp only; rw [hc.2.2 a]; exact Dvd.intro_left _ rfl)
  have hs : (fun a => source.shape a / f) = destination.shape := by
    funext a
    rw [hc.2.2 a]
    exact Nat.mul_div_cancel _ (by omega)
  dsimp only at hy hyq
  rw [hs] at hy hyq
  refine ⟨w, _, _, hw, hfield, hbc, hdv, hdw, _, hy, rfl, ?_⟩
  intro q hq
  dsimp only at hq ⊢
  have hfK : (f : K) ≠ 0 := by exact_mod_cast hf
  rw [hdw' q hq]
  -- the right-hand side
  have hfine : ∀ r, InR (fun _ : Fin d => f) r → InR source.shape (fun b => q b * f + r b) := by
    intro r hr b
    have h1 := hq b
    have h2 := hr b
    dsimp only at h2
    rw [hc.2.2 b]
    push_cast
    constructor
    · have := h1.1; have := h2.1; positivity
    · nlinarith
  have hR : meanN ⟨fun _ => f, y q⟩ = (∑ a, ∑ r ∈ box (fun _ : Fin d => f),
      ((v a).array.data (fun b => q b * f + r b) - (v a).below a (fun b => q b * f + r b)) / source.step a) / (f : K) ^ d := by
    unfold meanN NArr.sum
    dsimp only
    rw [Finset.prod_const, Finset.card_univ, Fintype.card_fin, Nat.cast_pow, Finset.sum_comm]
    congr 1
    refine Finset.sum_congr rfl fun r hr => ?_
    rw [hyq q r hq (mem_box.1 hr), hdv' _ (hfine r (mem_box.1 hr))]
  rw [hR, Finset.sum_div]
  refine Finset.sum_congr rfl fun a _ => ?_
  -- face values of the fine and coarse fields
  have hWface : ∀ p : Idx d, (∀ b, b ≠ a → 0 ≤ p b ∧ p b < destination.shape b) → -1 ≤ p a → p a < destination.shape a →
      faceVal (w a) a p = (∑ r ∈ box (Function.update (fun _ => f) a 1), faceVal (v a) a (faceIdx f a p r)) / (f : K) ^ (d - 1) := by
    intro p hp h1 h2
    have hfi : ∀ r, faceIdx f a p r a = p a * f + (f - 1) := by intro r; unfold faceIdx; rw [if_pos rfl]
    by_cases h0 : 0 ≤ p a
    · have hin : InR destination.shape p := by
        intro b
        by_cases hb : b = a
        · subst hb; exact ⟨h0, h2⟩
        · exact hp b hb
      rw [← self_faceVal (w a) a p hin, hdata a p hin]
      congr 1
      refine Finset.sum_congr rfl fun r _ => ?_
      unfold faceVal
      rw [if_pos]
      rw [hfi]
      have : (0 : ℤ) ≤ p a * f := by positivity
      omega
    · have hpa : p a = -1 := by omega
      have hneg : ∀ r, ¬ 0 ≤ faceIdx f a p r a := by
        intro r
        rw [hfi, hpa]; omega
      unfold faceVal
      rw [if_neg h0, hbc a]
      by_cases hper : (v a).bc.types a = (.periodic, .periodic)
      · rw [if_pos hper]
        have hin : InR destination.shape (Function.update p a (p a + (w a).array.grid.shape a)) := by
          intro b
          by_cases hb : b = a
          · subst hb
            rw [Function.update_self, (hfield.2.1 b).1, hpa]
            have := hfield.1 b
            omega
          · rw [Function.update_of_ne hb]; exact hp b hb
        rw [hdata a _ hin]
        congr 1
        refine Finset.sum_congr rfl fun r _ => ?_
        rw [if_neg (hneg r), if_pos hper]
        congr 1
        funext b
        by_cases hb : b = a
        · subst hb
          unfold faceIdx
          simp only [Function.update_self, if_true]
          rw [(hfield.2.1 b).1, (hv.2.1 b).1, hc.2.2 b]
          push_cast
          ring
        · unfold faceIdx
          simp [hb]
      · rw [if_neg hper, Finset.sum_congr rfl (fun r _ => by rw [if_neg (hneg r), if_neg hper]), Finset.sum_const]
        have hcard : (box (Function.update (fun _ : Fin d => f) a 1)).card = f ^ (d - 1) := by
          unfold box
          rw [Fintype.card_piFinset]
          simp only [Int.card_Ico, sub_zero, Int.toNat_natCast]
          rw [Finset.prod_update_of_mem (Finset.mem_univ a)]
          simp [Finset.card_sdiff]
        rw [hcard, nsmul_eq_mul, Nat.cast_pow, mul_comm, mul_div_assoc, div_self (pow_ne_zero _ hfK), mul_one]
  rw [self_faceVal (w a) a q hq, below_faceVal hfield a q hq]
  rw [hWface q (fun b _ => hq b) (by have := hq a; omega) (hq a).2]
  rw [hWface (Function.update q a (q a - 1)) (fun b hb => by rw [Function.update_of_ne hb]; exact hq b)
    (by rw [Function.update_self]; have := hq a; omega) (by rw [Function.update_self]; have := hq a; omega)]
  rw [← sub_div, ← Finset.sum_sub_distrib]
  have hbase : ∑ r ∈ box (fun _ : Fin d => f), ((v a).array.data (fun b => q b * f + r b) - (v a).below a (fun b => q b * f + r b)) / source.step a =
      (∑ r ∈ box (Function.update (fun _ : Fin d => f) a 1),
        (faceVal (v a) a (faceIdx f a q r) - faceVal (v a) a (faceIdx f a (Function.update q a (q a - 1)) r))) / source.step a := by
    rw [← Finset.sum_div]
    congr 1
    have e1 : ∑ r ∈ box (fun _ : Fin d => f), ((v a).array.data (fun b => q b * f + r b) - (v a).below a (fun b => q b * f + r b)) =
        ∑ r ∈ box (fun _ : Fin d => f), ((fun r : Idx d => faceVal (v a) a (fun b => q b * f + r b)) r -
          (fun r : Idx d => faceVal (v a) a (fun b => q b * f + r b)) (Function.update r a (r a - 1))) := by
      refine Finset.sum_congr rfl fun r hr => ?_
      have hin := hfine r (mem_box.1 hr)
      rw [self_faceVal (v a) a _ hin, below_faceVal hv a _ hin]
      congr 2
      funext b
      by_cases hb : b = a
      · subst hb; simp; ring
      · simp [hb]
    rw [e1, sum_box_telescope]
    refine Finset.sum_congr rfl fun r _ => ?_
    congr 2
    · funext b
      unfold faceIdx
      by_cases hb : b = a
      · subst hb; simp
      · simp [hb]
    · funext b
      unfold faceIdx
      by_cases hb : b = a
      · subst hb; simp; ring
      · simp [hb]
  rw [hbase, factor_eq source destination f hc a (hfield.1 a) (hdom a)]
  have hd1 : (f : K) ^ d = (f : K) ^ (d - 1) * f := by rw [← pow_succ]; congr 1; omega
  rw [hd1]
  have hst : source.step a ≠ 0 := by
    unfold Grid.step
    exact div_ne_zero (sub_ne_zero.2 (hdom a)) (by exact_mod_cast (hv.1 a).ne')
  field_simp

/-- **C45** An incompressible flow stays incompressible. -/
theorem C45_divergence_free (source destination : Grid d K) (f : ℕ) (hd : d ≠ 0) (hc : Coarsens source destination f)
    (hdom : ∀ a, (source.domain a).2 ≠ (source.domain a).1) (v w : Fin d → GridVariable d K) (hv : VelocityField source v)
    (divV : GridArray d K) (hdv : divergence (List.ofFn v) = .ok divV) (hzero : ∀ i, InR source.shape i → divV.data i = 0)
    (hw : downsampleStaggeredVelocity source destination v = .ok w) :
    ∃ divW, divergence (List.ofFn w) = .ok divW ∧ ∀ q, InR destination.shape q → divW.data q = 0 := by
  obtain ⟨w', divV', divW, h1, h2, -, h3, h4, coarse, h5, h6⟩ := C45_divergence source destination f hd hc hdom v hv
  rw [hw] at h1
  injection h1 with h1; subst h1
  rw [hdv] at h3
  injection h3 with h3; subst h3
  refine ⟨divW, h4, ?_⟩
  have hsV : divV.shape = source.shape := by
    obtain ⟨g, hg, -⟩ := hv.divergence_eq hd
    rw [hdv] at hg; injection hg with hg; subst hg; rfl
  have hsW : divW.shape = destination.shape := by
    obtain ⟨g, hg, -⟩ := h2.divergence_eq hd
    rw [h4] at hg; injection hg with hg; subst hg; rfl
  intro q hq
  rw [h6.2 q (by rw [hsW]; exact hq)]
  obtain ⟨y, hy, hys, hyd⟩ := C42_blocks divV.toNArr (fun _ => f) meanN (fun y z h => by
      unfold meanN NArr.sum
      rw [h.1, Finset.sum_congr rfl (fun i hi => h.2 i (by rw [h.1]; exact mem_box.1 hi))]) (fun _ => Nat.pos_of_ne_zero hc.2.1)
    (fun a => by rw [hsV, hc.2.2 a]; exact Dvd.intro_left _ rfl)
  rw [h5] at hy
  injection hy with hy; subst hy
  have hcs : coarse.shape = destination.shape := by rw [← h6.1, hsW]
  rw [hyd q (by rw [hcs]; exact hq)]
  unfold meanN NArr.sum blockAt
  dsimp only
  rw [Finset.sum_eq_zero, zero_div]
  intro r hr
  apply hzero
  intro b
  have h1 := hq b
  have h2 := mem_box.1 hr b
  rw [hc.2.2 b]
  push_cast
  constructor
  · have := h1.1; have := h2.1; positivity
  · nlinarith

/-- **C45** A defect: the factor is taken from axis 0 alone.  If another axis has a different ratio of sizes (and is divisible by
the factor of axis 0), the call succeeds but returns arrays whose shape is not that of the destination grid they claim to live on. -/
theorem C45_anisotropic_defect (source destination : Grid (d + 1) K) (f : ℕ) (hf : f ≠ 0) (hdom : destination.domain = source.domain)
    (hne : ∀ a, (source.domain a).2 ≠ (source.domain a).1) (m : Fin (d + 1) → ℕ) (hm : ∀ a, source.shape a = m a * f)
    (hpos : ∀ a, 0 < source.shape a) (h0 : m 0 = destination.shape 0) (b : Fin (d + 1)) (hb : m b ≠ destination.shape b)
    (v : Fin (d + 1) → GridVariable (d + 1) K) (hv : VelocityField source v) :
    ∃ w, downsampleStaggeredVelocity source destination v = .ok w ∧
      ∀ a, (w a).array.grid = destination ∧ (w a).array.shape b ≠ destination.shape b := by
  have hratio : destination.step ⟨0, by omega⟩ / source.step ⟨0, by omega⟩ = f := by
    show destination.step 0 / source.step 0 = f
    unfold Grid.step
    have h1 : (f : K) ≠ 0 := by exact_mod_cast hf
    have h2 : (destination.shape 0 : K) ≠ 0 := by
      have := hpos 0
      rw [hm 0, h0] at this
      exact_mod_cast (Nat.pos_of_mul_pos_right this).ne'
    rw [hdom, hm 0, h0, Nat.cast_mul]
    have h3 := sub_ne_zero.2 (hne 0)
    field_simp
  have hex : ∃ n : ℕ, destination.step ⟨0, by omega⟩ / source.step ⟨0, by omega⟩ = n := ⟨f, hratio⟩
  have hch : hex.choose = f := by
    have := hratio.symm.trans hex.choose_spec
    exact_mod_cast this.symm
  have hcomp := fun a => downsampleComponent_ok (v a).array.toNArr a f hf m (fun b => by rw [(hv.2.1 a).2.1]; exact hm b)
  choose w hw hwd using hcomp
  refine ⟨fun a => ⟨⟨⟨m, w a⟩, (v a).array.offset, destination⟩, (v a).bc⟩, ?_, fun a => ⟨rfl, hb⟩⟩
  unfold downsampleStaggeredVelocity
  rw [dif_pos (by omega), if_neg (by simp [hdom]), dif_pos hex]
  refine seqFin_ok _ _ fun a => ?_
  rw [if_neg (by simp [(hv.2.1 a).1]), hch, hw a]
  rfl

/-! ### Non-vacuity: a 4 × 6 channel, coarsened by 2 -/

/-- the fine and the coarse grid -/
def g46 : Grid 2 ℚ := ⟨![4, 6], fun _ => (0, 3)⟩
def g23 : Grid 2 ℚ := ⟨![2, 3], fun _ => (0, 3)⟩
def chan46 (a : Fin 2) : GridVariable 2 ℚ :=
  ⟨⟨⟨g46.shape, fun i => if a = 0 then i 0 + i 1 else i 0 * i 1⟩, fun b => if b = a then 1 else 1 / 2, g46⟩,
    ⟨.constant, fun b => if b = 0 then (.periodic, .periodic) else (.dirichlet, .dirichlet), fun _ => (some 1, some 2)⟩⟩

example : Coarsens g46 g23 2 ∧ VelocityField g46 chan46 ∧ ∀ a, (g46.domain a).2 ≠ (g46.domain a).1 := by
  refine ⟨⟨rfl, by norm_num, fun a => by fin_cases a <;> rfl⟩, ⟨fun b => by fin_cases b <;> simp [g46], fun a => ⟨rfl, rfl, fun b => rfl⟩,
    fun b => ?_⟩, fun a => by simp [g46]⟩
  fin_cases b
  · left; intro c; rfl
  · right; exact ⟨rfl, fun c => ⟨Or.inl rfl, Or.inl rfl⟩⟩

/-- **C45** `downsample_staggered_velocity` refuses grids with different domains, and velocity components on a grid other than the
source grid. -/
theorem C45_staggered_rejects {d : ℕ} {K : Type} [Field K] [DecidableEq K] (source destination : Grid d K) (velocity : Fin d → GridVariable d K) :
    (source.domain ≠ destination.domain → ∃ e, downsampleStaggeredVelocity source destination velocity = .error e) ∧
    ((∃ j, (velocity j).array.grid ≠ source) → ∃ e, downsampleStaggeredVelocity source destination velocity = .error e) := by
  unfold downsampleStaggeredVelocity
  by_cases h0 : 0 < d
  · rw [dif_pos h0]
    constructor
    · intro h
      rw [if_pos (Ne.symm h)]
      exact ⟨_, rfl⟩
    · rintro ⟨j, hj⟩
      split_ifs with h1 h2
      · exact ⟨_, rfl⟩
      · refine (seqFin_isError _).elim (fun ⟨g, hg⟩ => ?_) fun ⟨_, e, _, _, h⟩ => ⟨e, h⟩
        have := (seqFin_eq_ok _ _).1 hg j
        rw [if_pos hj] at this
        cases this
      · exact ⟨_, rfl⟩
  · rw [dif_neg h0]
    exact ⟨fun _ => ⟨_, rfl⟩, fun _ => ⟨_, rfl⟩⟩

end JaxCfd
