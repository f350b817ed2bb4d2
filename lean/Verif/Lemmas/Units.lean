import Verif.SpecUnits
import Verif.Lemmas.Permute
import Verif.Lemmas.FD
import Verif.Props.Shift

/-!
# Changing the units of measurement: padding, trimming and shifting
-/

namespace JaxCfd
variable {d : ℕ} {K : Type} [Field K]

section arr
variable {x y : NArr d K} {m : K}

theorem InR_update_iff {s : Fin d → ℕ} {ax : Fin d} {n : ℕ} {i : Idx d} : InR (Function.update s ax n) i ↔ (0 ≤ i ax ∧ i ax < n) ∧ ∀ a, a ≠ ax → 0 ≤ i a ∧ i a < s a := by
  constructor
  · intro h
    refine ⟨by simpa using h ax, fun a ha => ?_⟩
    have := h a
    rwa [Function.update_of_ne ha] at this
  · rintro ⟨h1, h2⟩ a
    by_cases ha : a = ax
    · subst ha; simpa using h1
    · rw [Function.update_of_ne ha]; exact h2 a ha

theorem InR_update_of {s : Fin d → ℕ} {ax : Fin d} {i : Idx d} {j : ℤ} (h : ∀ a, a ≠ ax → 0 ≤ i a ∧ i a < s a) (h0 : 0 ≤ j) (h1 : j < s ax) : InR s (Function.update i ax j) := by
  intro a
  by_cases ha : a = ax
  · subst ha; simp [h0, h1]
  · rw [Function.update_of_ne ha]; exact h a ha

theorem sliceInDim_scaled (h : x.Scaled m y) (s l : ℤ) (ax : Fin d) : RelS (NArr.Scaled m) (sliceInDim x s l ax) (sliceInDim y s l ax) := by
  unfold sliceInDim
  rw [h.1]
  dsimp only
  split_ifs with hc
  all_goals first
    | exact RelS.error _ _
    | refine RelS.ok ⟨by simp only [h.1], fun i hi => ?_⟩
      obtain ⟨h1, h2⟩ := InR_update_iff.1 hi
      refine h.2 _ (InR_update_of h2 ?_ ?_)
      all_goals omega

theorem padIdx_mem (n : ℕ) (hn : 0 < n) (j : ℤ) : (0 ≤ wrapIdx n j ∧ wrapIdx n j < n) ∧ (0 ≤ symIdx n j ∧ symIdx n j < n) ∧ (0 ≤ reflIdx n j ∧ reflIdx n j < n) ∧ (0 ≤ edgeIdx n j ∧ edgeIdx n j < n) := by
  have hn' : (0 : ℤ) < n := by exact_mod_cast hn
  refine ⟨⟨Int.emod_nonneg _ (by omega), Int.emod_lt_of_pos _ hn'⟩, ?_, ?_, ?_⟩
  · have h0 := Int.emod_nonneg j (by omega : 2 * (n : ℤ) ≠ 0)
    have h1 := Int.emod_lt_of_pos j (by omega : 0 < 2 * (n : ℤ))
    unfold symIdx
    split_ifs <;> omega
  · unfold reflIdx
    split_ifs with h h2
    · omega
    · have h0 := Int.emod_nonneg j (by omega : 2 * ((n : ℤ) - 1) ≠ 0)
      omega
    · have h1 := Int.emod_lt_of_pos j (by omega : 0 < 2 * ((n : ℤ) - 1))
      omega
  · unfold edgeIdx
    omega

/-- Padding by copying entries. -/
theorem jnpPad_copy_scaled (h : x.Scaled m y) (ax : Fin d) (w : ℤ × ℤ) {mode : PadMode K} (hm : mode.needsData = true) : RelS (NArr.Scaled m) (jnpPad x ax w mode) (jnpPad y ax w mode) := by
  unfold jnpPad
  rw [h.1]
  by_cases h1 : w.1 < 0 ∨ w.2 < 0
  · rw [if_pos h1]; exact RelS.error _ _
  rw [if_neg h1, if_neg h1]
  by_cases h2 : mode.needsData = true ∧ x.shape ax = 0 ∧ (w.1 ≠ 0 ∨ w.2 ≠ 0)
  · rw [if_pos h2]; exact RelS.error _ _
  rw [if_neg h2, if_neg h2]
  refine RelS.ok ⟨rfl, fun i hi => ?_⟩
  obtain ⟨h3, h4⟩ := InR_update_iff.1 hi
  have hn : 0 < x.shape ax := by
    by_contra hn
    have : x.shape ax = 0 := by omega
    rw [not_and, not_and] at h2
    have := h2 hm this
    push Not at this
    omega
  obtain ⟨k1, k2, k3, k4⟩ := padIdx_mem (x.shape ax) hn (i ax - w.1)
  cases mode with
  | wrap => simp only [padData, padIdxData, h.1]; exact h.2 _ (InR_update_of h4 k1.1 k1.2)
  | symmetric => simp only [padData, padIdxData, h.1]; exact h.2 _ (InR_update_of h4 k2.1 k2.2)
  | reflect => simp only [padData, padIdxData, h.1]; exact h.2 _ (InR_update_of h4 k3.1 k3.2)
  | edge => simp only [padData, padIdxData, h.1]; exact h.2 _ (InR_update_of h4 k4.1 k4.2)
  | const lo hi => cases hm

/-- Padding by constants; only the constants of the padded sides matter. -/
theorem jnpPad_const_scaled (h : x.Scaled m y) (ax : Fin d) (w : ℤ × ℤ) {lo hi lo' hi' : K} (hlo : 0 < w.1 → lo' = m * lo) (hhi : 0 < w.2 → hi' = m * hi) :
    RelS (NArr.Scaled m) (jnpPad x ax w (.const lo hi)) (jnpPad y ax w (.const lo' hi')) := by
  unfold jnpPad
  rw [h.1]
  by_cases h1 : w.1 < 0 ∨ w.2 < 0
  · rw [if_pos h1]; exact RelS.error _ _
  rw [if_neg h1, if_neg h1, if_neg (by simp [PadMode.needsData]), if_neg (by simp [PadMode.needsData])]
  refine RelS.ok ⟨rfl, fun i hi => ?_⟩
  obtain ⟨h3, h4⟩ := InR_update_iff.1 hi
  simp only [padData, h.1]
  split_ifs with k1 k2
  · exact hlo (by omega)
  · exact h.2 _ (InR_update_of h4 (by omega) (by omega))
  · exact hhi (by omega)

theorem map2_scaled {x' y' : NArr d K} {m' n : K} (h : x.Scaled m y) (h' : x'.Scaled m' y') (hs : x'.shape = x.shape) {f g : K → K → K} (hf : ∀ a b, g (m * a) (m' * b) = n * f a b) :
    (x.map2 f x').Scaled n (y.map2 g y') :=
  ⟨h.1, fun i hi => by
    show g (y.data i) (y'.data i) = n * f (x.data i) (x'.data i)
    rw [h.2 i hi, h'.2 i (by rw [hs]; exact hi), hf]⟩

end arr

theorem Grid.inUnits_step (l : K) (g : Grid d K) (a : Fin d) : (g.inUnits l).step a = l * g.step a := by
  unfold Grid.step Grid.inUnits
  dsimp only
  rw [← mul_sub, mul_div_assoc]

theorem Grid.inUnits_injective {l : K} (hl : l ≠ 0) {g g' : Grid d K} (h : g.inUnits l = g'.inUnits l) : g = g' := by
  unfold Grid.inUnits at h
  injection h with h1 h2
  refine Grid.ext h1 (funext fun a => ?_)
  have := congrFun h2 a
  rw [Prod.mk.injEq] at this
  exact Prod.ext (mul_left_cancel₀ hl this.1) (mul_left_cancel₀ hl this.2)

namespace GridArray.InUnits
variable {l m : K} {u v : GridArray d K}

theorem offset (h : u.InUnits l m v) : v.offset = u.offset := h.1
theorem grid (h : u.InUnits l m v) : v.grid = u.grid.inUnits l := h.2.1
theorem gridShape (h : u.InUnits l m v) : v.grid.shape = u.grid.shape := by rw [h.grid]; rfl
theorem shape (h : u.InUnits l m v) : v.shape = u.shape := h.2.2.1
theorem data (h : u.InUnits l m v) {i : Idx d} (hi : InR u.shape i) : v.data i = m * u.data i := h.2.2.2 i hi
theorem step (h : u.InUnits l m v) (a : Fin d) : v.grid.step a = l * u.grid.step a := by rw [h.grid, Grid.inUnits_step]

theorem gmap {f g : K → K} {n : K} (h : u.InUnits l m v) (hf : ∀ x, g (m * x) = n * f x) : (JaxCfd.gmap f u).InUnits l n (JaxCfd.gmap g v) :=
  ⟨h.1, h.2.1, h.2.2.1, fun i hi => by
    show g (v.data i) = n * f (u.data i)
    rw [h.data hi, hf]⟩

end GridArray.InUnits

namespace BC
variable {l m : K} {u v : GridArray d K}

theorem trim_inUnits (h : u.InUnits l m v) (w : ℤ) (ax : Fin d) : RelS (GridArray.InUnits l m) (trim u w ax) (trim v w ax) := by
  unfold trim
  rw [h.shape, h.offset]
  exact RelS.bind (sliceInDim_scaled h.2.2 _ _ _) fun a b hab => RelS.ok ⟨rfl, h.grid, hab⟩

theorem trimPaddingLower_inUnits (bc : BC d K) (h : u.InUnits l m v) (ax : Fin d) (side : TrimSide) :
    RelS (fun p q => p.1.InUnits l m q.1 ∧ q.2 = p.2 ∧ (side = .right → p.2 = 0)) (bc.trimPaddingLower u ax side) ((bc.inUnits l m).trimPaddingLower v ax side) := by
  unfold trimPaddingLower
  rw [h.offset, h.gridShape, h.shape]
  by_cases hc : u.offset ax ≤ 0 ∧ (side = .both ∨ side = .left)
  · rw [if_pos hc, if_pos hc]
    refine RelS.bind (trim_inUnits h _ ax) fun a b hab => RelS.ok ⟨hab, rfl, fun hr => ?_⟩
    rcases hc.2 with e | e <;> rw [e] at hr <;> cases hr
  · rw [if_neg hc, if_neg hc]
    exact RelS.ok ⟨h, rfl, fun _ => rfl⟩

theorem positiveTrim_inUnits (bc : BC d K) (h : u.InUnits l m v) (ax : Fin d) (side : TrimSide) : (bc.inUnits l m).positiveTrim v ax side = bc.positiveTrim u ax side := by
  unfold positiveTrim
  rw [h.offset, h.gridShape, h.shape]
  rfl

theorem trimPadding_inUnits (bc : BC d K) (h : u.InUnits l m v) (ax : Fin d) (side : TrimSide) :
    RelS (fun p q => p.1.InUnits l m q.1 ∧ q.2 = p.2 ∧ (side = .right → p.2.1 = 0) ∧ (side = .left → p.2.2 = 0)) (bc.trimPadding u ax side) ((bc.inUnits l m).trimPadding v ax side) := by
  unfold trimPadding
  rw [h.gridShape, h.shape]
  split_ifs
  · refine RelS.bind (trimPaddingLower_inUnits bc h ax side) fun p q hpq => ?_
    obtain ⟨p1, p2⟩ := p
    obtain ⟨q1, q2⟩ := q
    obtain ⟨h1, h2, h3⟩ := hpq
    dsimp only at h1 h2 h3
    subst h2
    dsimp only
    rw [positiveTrim_inUnits bc h1 ax side]
    refine RelS.bind (R := GridArray.InUnits l m) ?_ fun a b hab => RelS.ok ⟨hab, rfl, fun hr => by rw [h3 hr]; rfl, fun hl => by
      show bc.positiveTrim p1 ax side = 0
      unfold positiveTrim
      rw [if_neg (by rw [hl]; decide)]⟩
    unfold trimUpperIf
    split_ifs
    · exact trim_inUnits h1 _ _
    · exact RelS.ok h1
  · exact RelS.ok ⟨h, rfl, fun _ => rfl, fun _ => rfl⟩

variable [HasNan K]

/-- The constants of the sides that are padded. -/
def ConstScaled (cv cv' : K × K) (n : K) (w : ℤ × ℤ) : Prop := (0 < w.1 → cv'.1 = n * cv.1) ∧ (0 < w.2 → cv'.2 = n * cv.2)

variable {x y : NArr d K}

theorem padDirichletCenter_scaled (bc : BC d K) (h : x.Scaled m y) (w : ℤ × ℤ) (ax : Fin d) (mode : Padding) (hcv : ConstScaled (bc.constantValues ax) ((bc.inUnits l m).constantValues ax) m w) :
    RelS (NArr.Scaled m) (bc.padDirichletCenter x w ax mode) ((bc.inUnits l m).padDirichletCenter y w ax mode) := by
  unfold padDirichletCenter
  dsimp only
  generalize (if w.1 + w.2 = 1 ∨ w.1 + w.2 = 0 then Padding.mirror else mode) = md
  have hf : ∀ a b : K, 2 * (m * a) - m * b = m * (2 * a - b) := fun a b => by ring
  cases md with
  | mirror =>
    refine RelS.bind' (jnpPad_const_scaled h ax w hcv.1 hcv.2) fun a a' ha haa => RelS.bind' (jnpPad_copy_scaled h ax w rfl) fun b b' hb hbb => RelS.ok (map2_scaled haa hbb ?_ hf)
    rw [(jnpPad_shape ha).2.2.1, (jnpPad_shape hb).2.2.1]
  | extend =>
    refine RelS.bind' (jnpPad_const_scaled h ax w hcv.1 hcv.2) fun a a' ha haa => RelS.bind' (jnpPad_copy_scaled h ax w rfl) fun b b' hb hbb => RelS.ok (map2_scaled haa hbb ?_ hf)
    rw [(jnpPad_shape ha).2.2.1, (jnpPad_shape hb).2.2.1]
  | other => exact RelS.error _ _

theorem inUnits_none (bc : BC d K) : (∃ a, ((bc.inUnits l m).bcValues a).1 = none ∨ ((bc.inUnits l m).bcValues a).2 = none) ↔ ∃ a, (bc.bcValues a).1 = none ∨ (bc.bcValues a).2 = none := by
  simp only [inUnits, sideInUnits, Option.map_eq_none_iff]

theorem padDirichletEdge_scaled (bc : BC d K) (h : x.Scaled m y) (w : ℤ × ℤ) (ax : Fin d) (mode : Padding) (hcv : ConstScaled (bc.constantValues ax) ((bc.inUnits l m).constantValues ax) m w) :
    RelS (NArr.Scaled m) (bc.padDirichletEdge x w ax mode) ((bc.inUnits l m).padDirichletEdge y w ax mode) := by
  unfold padDirichletEdge
  dsimp only
  by_cases h1 : w.1 + w.2 = 1 ∨ w.1 + w.2 = 0
  · rw [if_pos h1, if_pos h1]
    exact jnpPad_const_scaled h ax w hcv.1 hcv.2
  rw [if_neg h1, if_neg h1]
  by_cases h2 : w.1 + w.2 > 1
  · rw [if_pos h2, if_pos h2]
    cases mode with
    | mirror =>
      dsimp only
      by_cases h3 : ∃ a, (bc.bcValues a).1 = none ∨ (bc.bcValues a).2 = none
      · rw [if_pos h3]
        exact RelS.error _ _
      rw [if_neg h3, if_neg (fun h4 => h3 ((inUnits_none bc).1 h4))]
      refine RelS.bind' (jnpPad_const_scaled h ax _ (fun _ => (mul_zero m).symm) (fun _ => (mul_zero m).symm)) fun e e' he hee =>
        RelS.bind' (jnpPad_const_scaled h ax w (fun hw => by rw [hcv.1 hw]; ring) (fun hw => by rw [hcv.2 hw]; ring)) fun a a' ha haa =>
        RelS.bind' (jnpPad_copy_scaled hee ax _ rfl) fun b b' hb hbb => RelS.ok (map2_scaled haa hbb ?_ fun a b => by ring)
      rw [(jnpPad_shape ha).2.2.1, (jnpPad_shape hb).2.2.1, (jnpPad_shape he).2.2.1, Function.update_self, Function.update_idem]
      obtain ⟨w1, w2, -, -⟩ := jnpPad_shape ha
      congr 1
      split_ifs <;> simp <;> omega
    | extend => exact jnpPad_const_scaled h ax w hcv.1 hcv.2
    | other => exact RelS.error _ _
  · rw [if_neg h2, if_neg h2]
    exact RelS.ok h

theorem padNeumann_scaled (hl : l ≠ 0) (bc : BC d K) (h : x.Scaled m y) (w : ℤ × ℤ) (width : ℤ) (ax : Fin d) (step : K) (mode : Padding)
    (hcv : ConstScaled (bc.constantValues ax) ((bc.inUnits l m).constantValues ax) (m / l) w) :
    RelS (NArr.Scaled m) (bc.padNeumann x w width ax step mode) ((bc.inUnits l m).padNeumann y w width ax (l * step) mode) := by
  unfold padNeumann
  dsimp only
  refine RelS.bind (R := fun a b => b = a ∧ a.needsData = true) ?_ fun md md' hmd => ?_
  · split_ifs
    · exact RelS.ok ⟨rfl, rfl⟩
    · cases mode with
      | mirror => exact RelS.ok ⟨rfl, rfl⟩
      | extend => exact RelS.ok ⟨rfl, rfl⟩
      | other => exact RelS.error _ _
  obtain ⟨rfl, hmd⟩ := hmd
  refine RelS.bind' (jnpPad_copy_scaled h ax w hmd) fun a a' ha haa => ?_
  intro r hr
  obtain ⟨z, hz, hr⟩ := Except.bind_eq_ok.1 hr
  obtain ⟨c, hc, hr⟩ := Except.bind_eq_ok.1 hr
  obtain ⟨w1, w2, zs, zd⟩ := jnpPad_shape hz
  obtain ⟨-, -, cs, cd⟩ := jnpPad_shape hc
  rw [jnpPad_ok y ax w _ w1 w2 (Or.inl rfl), Except.bind_ok, jnpPad_ok y ax w _ w1 w2 (Or.inl rfl), Except.bind_ok]
  obtain rfl := Except.ok.inj hr
  refine ⟨_, rfl, haa.1, fun i hi => ?_⟩
  have hi' : InR a.shape i := hi
  show a'.data i - _ * (l * step) * (padData y ax w.1 (.const 0 0) i - padData y ax w.1 (.const _ _) i) = m * (a.data i - _ * step * (z.data i - c.data i))
  rw [haa.2 i hi', zd, cd]
  rw [(jnpPad_shape ha).2.2.1] at hi'
  obtain ⟨h3, h4⟩ := InR_update_iff.1 hi'
  simp only [padData, h.1]
  split_ifs with k1 k2
  · rw [hcv.1 (by omega)]
    field_simp
    ring
  · ring
  · rw [hcv.2 (by omega)]
    field_simp
    ring

theorem sideInUnits_getD {t : BCType} {v : Option K} (hv : v ≠ none) : (sideInUnits l m t v).getD HasNan.nan = (if t = .neumann then m / l else m) * v.getD HasNan.nan := by
  cases v with
  | none => exact absurd rfl hv
  | some x => rfl

theorem padByType_inUnits (hl : l ≠ 0) (bc : BC d K) (hb : bc.Given) (h : u.InUnits l m v) (t : BCType) (w : ℤ × ℤ) (width : ℤ) (ax : Fin d) (mode : Padding)
    (h1 : t ≠ .periodic → 0 < w.1 → (bc.types ax).1 = t) (h2 : t ≠ .periodic → 0 < w.2 → (bc.types ax).2 = t) :
    RelS (NArr.Scaled m) (bc.padByType u t w width ax mode) ((bc.inUnits l m).padByType v t w width ax mode) := by
  unfold padByType
  rw [h.offset, h.step]
  have hcv : t ≠ .periodic → ConstScaled (bc.constantValues ax) ((bc.inUnits l m).constantValues ax) (if t = .neumann then m / l else m) w := fun ht => by
    refine ⟨fun hw => ?_, fun hw => ?_⟩
    · have e := h1 ht hw
      have := sideInUnits_getD (l := l) (m := m) (t := (bc.types ax).1) ((hb ax).1 (by rw [e]; exact ht))
      unfold constantValues inUnits
      dsimp only
      rw [this, e]
    · have e := h2 ht hw
      have := sideInUnits_getD (l := l) (m := m) (t := (bc.types ax).2) ((hb ax).2 (by rw [e]; exact ht))
      unfold constantValues inUnits
      dsimp only
      rw [this, e]
  cases t with
  | periodic => exact jnpPad_copy_scaled h.2.2 ax w rfl
  | dirichlet =>
    dsimp only
    split_ifs
    · exact padDirichletCenter_scaled bc h.2.2 w ax mode (hcv (by decide))
    · exact padDirichletEdge_scaled bc h.2.2 w ax mode (hcv (by decide))
    · exact RelS.error _ _
  | neumann =>
    dsimp only
    split_ifs
    · exact padNeumann_scaled hl bc h.2.2 w width ax _ mode (hcv (by decide))
    · exact RelS.error _ _
  | invalid => exact RelS.error _ _

theorem pad1_inUnits (hl : l ≠ 0) (bc : BC d K) (hb : bc.Given) (h : u.InUnits l m v) (width : ℤ) (ax : Fin d) (mode : Padding) :
    RelS (GridArray.InUnits l m) (bc.pad1 u width ax mode) ((bc.inUnits l m).pad1 v width ax mode) := by
  unfold pad1
  dsimp only
  have hmp : (bc.inUnits l m).makePadding width ax = bc.makePadding width ax := rfl
  rw [hmp, h.offset]
  refine RelS.bind (trimPadding_inUnits bc h ax _) fun p q hpq => ?_
  obtain ⟨p1, p2⟩ := p
  obtain ⟨q1, q2⟩ := q
  obtain ⟨k1, k2, k3, k4⟩ := hpq
  dsimp only at k1 k2 k3 k4
  subst k2
  dsimp only
  refine RelS.bind (padByType_inUnits hl bc hb k1 _ _ width ax mode ?_ ?_) fun a b hab => RelS.ok ⟨rfl, h.grid, hab⟩
  · intro ht hw
    unfold makePadding at *
    by_cases hneg : width < 0
    · rw [if_pos hneg]
    · rw [if_neg hneg] at *
      have : needTrimming (bc.types ax).2 width = .right := by
        unfold needTrimming
        rw [if_neg ht, if_pos (by omega)]
      have := k3 this
      dsimp only at hw
      omega
  · intro ht hw
    unfold makePadding at *
    by_cases hneg : width < 0
    · rw [if_pos hneg] at *
      have : needTrimming (bc.types ax).1 width = .left := by
        unfold needTrimming
        rw [if_neg ht, if_neg (by omega)]
      have := k4 this
      dsimp only at hw
      omega
    · rw [if_neg hneg]

theorem shift_inUnits (hl : l ≠ 0) (bc : BC d K) (hb : bc.Given) (h : u.InUnits l m v) (k : ℤ) (ax : Fin d) (mode : Padding) :
    RelS (GridArray.InUnits l m) (bc.shift u k ax mode) ((bc.inUnits l m).shift v k ax mode) := by
  unfold shift
  exact RelS.bind (pad1_inUnits hl bc hb h k ax mode) fun a b hab => trim_inUnits hab _ _

theorem isAligned_inUnits (bc : BC d K) (h : u.InUnits l m v) (ax : Fin d) : (bc.inUnits l m).isAligned v ax = bc.isAligned u ax := by
  unfold isAligned
  rw [h.offset, h.gridShape, h.shape]
  rfl

theorem imposeBC_inUnits (hl : l ≠ 0) (bc : BC d K) (hb : bc.Given) (h : u.InUnits l m v) : RelS (GridVariable.InUnits l m) (bc.imposeBC u) ((bc.inUnits l m).imposeBC v) := by
  unfold imposeBC trimBoundary padAndImposeBC
  rw [h.offset]
  refine RelS.bind (RelS.foldlM _ (fun a _ x y hxy => ?_) h) fun x y hxy => RelS.bind (R := GridArray.InUnits l m) (RelS.foldlM _ (fun a _ x y hxy => ?_) hxy) fun x y hxy => RelS.ok ⟨rfl, hb, hxy⟩
  · unfold trimBoundaryAxis
    rw [isAligned_inUnits bc hxy]
    refine RelS.bind (R := fun _ _ => True) (fun r hr => ⟨r, hr, trivial⟩) fun _ _ _ => RelS.bind (trimPadding_inUnits bc hxy a _) fun p q hpq => ?_
    obtain ⟨p1, p2⟩ := p
    obtain ⟨q1, q2⟩ := q
    exact RelS.ok hpq.1
  · unfold padImposeAxis
    rw [isAligned_inUnits bc hxy, hxy.offset]
    refine RelS.bind (R := fun _ _ => True) (fun r hr => ⟨r, hr, trivial⟩) fun _ _ _ => ?_
    have ht : (bc.inUnits l m).types = bc.types := rfl
    rw [ht]
    simp only [Option.getD_some]
    split_ifs
    · exact pad1_inUnits hl bc hb hxy _ _ _
    · exact pad1_inUnits hl bc hb hxy _ _ _
    · exact RelS.ok hxy
    · exact RelS.ok hxy

end BC
end JaxCfd
