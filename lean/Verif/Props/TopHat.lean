import Verif.Lemmas.TopHat
import Verif.Props.Resize
import Verif.Props.Interp
import Verif.Props.Translation
import Verif.Props.Spectrum

/-! # C70: `top_hat_downsample` -/

set_option linter.unusedSectionVars false

namespace JaxCfd
variable {d : ℕ} {K : Type} [Field K] [HasNan K]

/-- The destination grid covers the same domain with cells `F a` times as large along axis `a`. -/
structure CoarserBy (source destination : Grid d K) (F : Fin d → ℕ) : Prop where
  domain : destination.domain = source.domain
  factor_pos : ∀ a, 0 < F a
  pos : ∀ a, 0 < destination.shape a
  size : ∀ a, source.shape a = destination.shape a * F a
  extent : ∀ a, (source.domain a).2 ≠ (source.domain a).1

/-- Factors and filter sizes that `top_hat_downsample` accepts: even or 1, the filter at least as large as the factor. -/
structure FilterOK (F f : Fin d → ℕ) : Prop where
  factor : ∀ a, F a % 2 = 0 ∨ F a = 1
  filter : ∀ a, f a % 2 = 0 ∨ f a = 1
  le : ∀ a, F a ≤ f a

/-- A variable that can be downsampled: on the source grid, at an edge or the center of the cells along filtered axes (the
center only if the axis is really coarsened), periodic or cell-centered between walls after the initial interpolation, which succeeds. -/
structure Filterable (source : Grid d K) (F f : Fin d → ℕ) (c : GridVariable d K) : Prop where
  grid : c.array.grid = source
  shape : c.array.shape = source.shape
  offset : ∀ a, f a ≠ 1 → c.array.offset a = 0 ∨ c.array.offset a = 1 ∨ (c.array.offset a = 1 / 2 ∧ F a ≠ 1)
  bc : ∀ a, c.bc.types a = (.periodic, .periodic) ∨ (BC.Wall (c.bc.types a).1 ∧ BC.Wall (c.bc.types a).2 ∧
    (f a = 1 → c.array.offset a = 1 / 2) ∧ f a / 2 ≤ source.shape a)
  interp : ∃ C, linear c (centerOffset c.array.offset f) = .ok C

/-- What the result for the variable `c` must be: the same boundary conditions and offset, the destination grid, and every value
whose window does not cross a wall is the mean of the linear interpolation `C` of `c` to the cell centers, over the window of
`f` fine cells centered at the coarse point. -/
def Filtered (source destination : Grid d K) (F f : Fin d → ℕ) (c r : GridVariable d K) : Prop :=
  r.bc = c.bc ∧ r.array.offset = c.array.offset ∧ r.array.grid = destination ∧ r.array.shape = destination.shape ∧
  ∀ C, linear c (fun a => if f a = 1 then c.array.offset a else 1 / 2) = .ok C → ∀ i lo : Idx d, InR destination.shape i →
    (∀ a, WindowAt (c.array.offset a) (F a) (f a) (i a) (lo a)) →
    (∀ a, c.bc.types a = (.periodic, .periodic) ∨ (0 ≤ lo a ∧ lo a + f a ≤ source.shape a)) →
    r.array.data i = windowMean source.shape f lo C.array.data

theorem linear_shape (c r : GridVariable d K) (o : Fin d → ℚ) (h : linear c o = .ok r)
    (ho : ∀ a, o a ≠ c.array.offset a → c.array.offset a ≤ c.array.grid.shape a ∧ 0 < c.array.grid.shape a) :
    r.array.shape = c.array.shape := by
  have key : ∀ (l : List (Fin d)) (c : GridVariable d K), l.Nodup →
      (∀ a ∈ l, o a ≠ c.array.offset a → c.array.offset a ≤ c.array.grid.shape a ∧ 0 < c.array.grid.shape a) →
      l.foldlM (fun c a => linearAlongAxis c (o a) a) c = .ok r → r.array.shape = c.array.shape := by
    intro l
    induction l with
    | nil => intro c _ _ h; injection h with h; subst h; rfl
    | cons a l ih =>
      intro c hnd ho h
      rw [List.foldlM_cons] at h
      obtain ⟨m, hm, h⟩ := Except.bind_eq_ok.1 h
      obtain ⟨m1, m2, m3⟩ := linearAlongAxis_meta hm
      have hs : m.array.shape = c.array.shape := by
        unfold linearAlongAxis at hm
        by_cases h0 : o a - c.array.offset a = 0
        · simp only [h0, if_true] at hm
          injection hm with hm; subst hm; rfl
        · obtain ⟨h1, h2⟩ := ho a (List.mem_cons_self ..) (fun e => h0 (by rw [e]; ring))
          by_cases hfl : ((⌊o a - c.array.offset a⌋ : ℤ) : ℚ) = o a - c.array.offset a
          · simp only [h0, if_false, hfl, if_true] at hm
            obtain ⟨p, hp, hm⟩ := Except.bind_eq_ok.1 hm
            injection hm with hm; subst hm
            exact (BC.shift_spec hp h1 h2).2.1
          · simp only [h0, if_false, hfl] at hm
            obtain ⟨p, hp, hm⟩ := Except.bind_eq_ok.1 hm
            obtain ⟨q, -, hm⟩ := Except.bind_eq_ok.1 hm
            injection hm with hm; subst hm
            exact (BC.shift_spec hp h1 h2).2.1
      have hal : a ∉ l := (List.nodup_cons.1 hnd).1
      rw [ih m (List.nodup_cons.1 hnd).2 (fun b hb => by
        have hne : b ≠ a := fun e => hal (e ▸ hb)
        rw [m1, m2, Function.update_of_ne hne]
        exact ho b (List.mem_cons_of_mem _ hb)) h, hs]
  exact key _ c (List.nodup_finRange d) (fun a _ => ho a) h

theorem CoarserBy.ratio [CharZero K] {source destination : Grid d K} {F : Fin d → ℕ} (h : CoarserBy source destination F) (a : Fin d) :
    destination.step a / source.step a = F a := by
  unfold Grid.step
  rw [h.domain, h.size a, Nat.cast_mul]
  have h1 : (destination.shape a : K) ≠ 0 := by exact_mod_cast (h.pos a).ne'
  have h2 : (F a : K) ≠ 0 := by exact_mod_cast (h.factor_pos a).ne'
  have h3 : (source.domain a).2 - (source.domain a).1 ≠ 0 := sub_ne_zero.2 (h.extent a)
  field_simp

theorem topHat_unfold [CharZero K] {source destination : Grid d K} {F : Fin d → ℕ} (h : CoarserBy source destination F)
    (filterSize : Option (Fin d → ℕ)) (hf : FilterOK F (filterSize.getD F)) (vs : List (GridVariable d K)) :
    topHatDownsample source destination vs filterSize = vs.mapM (topHatOne source destination F (filterSize.getD F)) := by
  have hex : ∀ a, ∃ n : ℕ, destination.step a / source.step a = n := fun a => ⟨F a, h.ratio a⟩
  have hch : (fun a => (hex a).choose) = F := by
    funext a
    have := (h.ratio a).symm.trans (hex a).choose_spec
    exact_mod_cast this.symm
  unfold topHatDownsample
  rw [if_neg (by simp [h.domain]), dif_pos hex]
  rw [hch]
  unfold topHatWith
  rw [if_neg (fun h' => h' hf.filter), if_neg (fun h' => h' hf.factor), if_neg (fun h' => h' hf.le)]

theorem Filterable.centered {source destination : Grid d K} {F f : Fin d → ℕ} (h : CoarserBy source destination F)
    (hf : FilterOK F f) {c : GridVariable d K} (hc : Filterable source F f c) {C : GridVariable d K}
    (hC : linear c (centerOffset c.array.offset f) = .ok C) :
    (centerOffset c.array.offset f = fun a => if f a = 1 then c.array.offset a else 1 / 2) ∧
    C.array.shape = source.shape ∧ C.array.grid = source ∧
    (∀ a, AxisOK (destination.shape a) (C.array.shape a) (c.array.offset a) (F a) (f a)) ∧
    ∀ a, c.bc.Paddable C.array a (f a / 2) := by
  obtain ⟨o1, g1, b1⟩ := C23_offset_and_bc c _ C hC
  have hpos : ∀ a, 0 < source.shape a := fun a => by rw [h.size a]; exact Nat.mul_pos (h.pos a) (h.factor_pos a)
  have s1 : C.array.shape = source.shape := by
    rw [linear_shape c C _ hC, hc.shape]
    intro a hne
    rw [hc.grid]
    refine ⟨?_, hpos a⟩
    have h1 : (1 : ℚ) ≤ source.shape a := by exact_mod_cast hpos a
    have hfa : f a ≠ 1 := fun e => hne (by unfold centerOffset; rw [if_neg (by omega)])
    rcases hc.offset a hfa with e | e | ⟨e, -⟩ <;> rw [e] <;> linarith
  have hcenter : centerOffset c.array.offset f = fun a => if f a = 1 then c.array.offset a else 1 / 2 := by
    funext a
    unfold centerOffset
    have := h.factor_pos a
    have := hf.le a
    by_cases e : f a = 1
    · rw [if_neg (by omega), if_pos e]
    · rw [if_pos (by omega), if_neg e]
  refine ⟨hcenter, s1, g1.trans hc.grid, fun a => ?_, fun a => ?_⟩
  · rw [s1]
    exact ⟨h.pos a, h.size a, hf.factor a, hf.filter a, hf.le a, h.factor_pos a, hc.offset a⟩
  · rcases hc.bc a with e | ⟨w1, w2, w3, w4⟩
    · exact Or.inl e
    · refine Or.inr ⟨w1, w2, ?_, by rw [g1, hc.grid]; exact w4⟩
      rw [o1, hcenter]
      dsimp only
      by_cases e : f a = 1
      · rw [if_pos e]; exact w3 e
      · rw [if_neg e]

theorem topHatOne_ok {source destination : Grid d K} {F f : Fin d → ℕ} (h : CoarserBy source destination F)
    (hf : FilterOK F f) (c : GridVariable d K) (hc : Filterable source F f c) :
    ∃ r, topHatOne source destination F f c = .ok r ∧ Filtered source destination F f c r := by
  obtain ⟨C, hC⟩ := hc.interp
  obtain ⟨hcenter, s1, g1, hax, hpad⟩ := hc.centered h hf hC
  obtain ⟨r, hr, rs, ro, rg, rdom, rd⟩ := topHat_fold c.bc source destination c.array.offset F f (List.finRange d) C.array
    (List.nodup_finRange d) (fun a _ => by rw [s1, g1]) (fun a _ => hax a) (fun a _ => hpad a)
  refine ⟨⟨r, c.bc⟩, ?_, rfl, ?_, ?_, ?_, ?_⟩
  · unfold topHatOne
    rw [if_neg (by simp [hc.grid]), hC, Except.bind_ok, hr, Except.bind_ok]
    rfl
  · funext a; rw [show (⟨r, c.bc⟩ : GridVariable d K).array.offset a = r.offset a from rfl, ro a]; simp
  · show r.grid = destination
    have e1 : r.grid.shape = destination.shape := by funext a; rw [rg a]; simp
    have e2 : r.grid.domain = destination.domain := by
      rw [rdom, h.domain]
      split_ifs
      · rw [g1]
      · rfl
    cases hg : r.grid
    rw [hg] at e1 e2
    dsimp only at e1 e2
    subst e1 e2
    rfl
  · funext a; show r.shape a = _; rw [rs a]; simp
  · intro C' hC' i lo hi hw hin
    rw [← hcenter, hC] at hC'
    injection hC' with hC'
    subst hC'
    show r.data i = _
    rw [rd i lo (fun a _ => hi a) (fun a _ => hw a) (fun a _ => by rw [s1]; exact hin a)]
    unfold windowMean
    simp only [List.mem_finRange, if_true, s1]
    congr 1
    rw [Nat.cast_prod, ← List.prod_ofFn, List.ofFn_eq_map]

/-- **C70** The result of `top_hat_downsample`, for any list of variables, any even factors and filter sizes (or 1), by default
the filter size being the factor. -/
theorem C70_window [CharZero K] {source destination : Grid d K} {F : Fin d → ℕ} (h : CoarserBy source destination F)
    (filterSize : Option (Fin d → ℕ)) (hf : FilterOK F (filterSize.getD F)) (vs : List (GridVariable d K))
    (hvs : ∀ c ∈ vs, Filterable source F (filterSize.getD F) c) :
    ∃ rs, topHatDownsample source destination vs filterSize = .ok rs ∧
      List.Forall₂ (Filtered source destination F (filterSize.getD F)) vs rs := by
  rw [topHat_unfold h filterSize hf vs]
  induction vs with
  | nil => exact ⟨[], rfl, .nil⟩
  | cons c vs ih =>
    obtain ⟨rs, hrs, hall⟩ := ih fun c hc => hvs c (List.mem_cons_of_mem _ hc)
    obtain ⟨r, hr, hR⟩ := topHatOne_ok h hf c (hvs c (List.mem_cons_self ..))
    refine ⟨r :: rs, ?_, .cons hR hall⟩
    rw [mapM_eq_ok] at hrs ⊢
    exact .cons hr hrs

/-- The same, in the form used below. -/
theorem topHat_forall [CharZero K] {source destination : Grid d K} {F : Fin d → ℕ} (h : CoarserBy source destination F)
    (filterSize : Option (Fin d → ℕ)) (hf : FilterOK F (filterSize.getD F)) (vs : List (GridVariable d K))
    (hvs : ∀ c ∈ vs, Filterable source F (filterSize.getD F) c) (P : GridVariable d K → GridVariable d K → Prop)
    (hP : ∀ c ∈ vs, ∀ r, Filtered source destination F (filterSize.getD F) c r → P c r) :
    ∃ rs, topHatDownsample source destination vs filterSize = .ok rs ∧ List.Forall₂ P vs rs := by
  obtain ⟨rs, hrs, hall⟩ := C70_window h filterSize hf vs hvs
  refine ⟨rs, hrs, ?_⟩
  clear hrs hvs
  induction hall with
  | nil => exact .nil
  | cons hr _ ih =>
    exact .cons (hP _ (List.mem_cons_self ..) _ hr) (ih fun c hc => hP c (List.mem_cons_of_mem _ hc))

/-- **C70** Cell-centered variables under any boundary conditions, with the default filter: the coarse cell carries the mean of
the fine cells that make it up. -/
theorem C70_cell_centered [CharZero K] {source destination : Grid d K} {F : Fin d → ℕ} (h : CoarserBy source destination F)
    (hF : ∀ a, F a % 2 = 0 ∨ F a = 1) (vs : List (GridVariable d K))
    (hvs : ∀ c ∈ vs, c.array.grid = source ∧ c.array.shape = source.shape ∧ (∀ a, c.array.offset a = 1 / 2) ∧
      ∀ a, c.bc.types a = (.periodic, .periodic) ∨ (BC.Wall (c.bc.types a).1 ∧ BC.Wall (c.bc.types a).2)) :
    ∃ rs, topHatDownsample source destination vs = .ok rs ∧ List.Forall₂ (fun c r => r.bc = c.bc ∧
      r.array.offset = c.array.offset ∧ r.array.grid = destination ∧ r.array.shape = destination.shape ∧
      ∀ i : Idx d, InR destination.shape i → r.array.data i =
        (∑ k ∈ box F, c.array.data fun a => F a * i a + k a) / ((∏ a, F a : ℕ) : K)) vs rs := by
  refine topHat_forall h none ⟨hF, hF, fun _ => le_refl _⟩ vs (fun c hc => ?_) _ (fun c hc r hr => ?_)
  · obtain ⟨h1, h2, h3, h4⟩ := hvs c hc
    refine ⟨h1, h2, fun a hne => Or.inr (Or.inr ⟨h3 a, hne⟩), fun a => ?_, c, ?_⟩
    · rcases h4 a with e | ⟨w1, w2⟩
      · exact Or.inl e
      · refine Or.inr ⟨w1, w2, fun _ => h3 a, ?_⟩
        show F a / 2 ≤ _
        rw [h.size a]
        have := Nat.le_mul_of_pos_left (F a) (h.pos a)
        omega
    · refine linear_skip c _ fun a => ?_
      unfold centerOffset
      split_ifs
      · exact (h3 a).symm
      · rfl
  · obtain ⟨h1, h2, h3, h4⟩ := hvs c hc
    obtain ⟨r1, r2, r3, r4, r5⟩ := hr
    refine ⟨r1, r2, r3, r4, fun i hi => ?_⟩
    have hin : ∀ a, 0 ≤ (F a : ℤ) * i a ∧ (F a : ℤ) * i a + F a ≤ source.shape a := by
      intro a
      have := hi a
      have hFp := h.factor_pos a
      refine ⟨mul_nonneg (by omega) this.1, ?_⟩
      rw [h.size a]
      push_cast
      nlinarith
    rw [r5 c (linear_skip c _ fun a => by simp only [h3 a, ite_self]) i (fun a => F a * i a) hi (fun a => ?_) (fun a => Or.inr (hin a))]
    · unfold windowMean
      simp only [Option.getD_none]
      congr 1
      refine Finset.sum_congr rfl fun k hk => ?_
      congr 1
      funext a
      have hk := mem_box.1 hk a
      have := hin a
      exact Int.emod_eq_of_lt (by omega) (by omega)
    · unfold WindowAt
      rw [h3 a]
      simp only [Option.getD_none]
      split_ifs with e
      · rw [e]; ring
      · push_cast; ring

/-! ## Periodic variables -/

/-- A periodic variable on the source grid at one of the supported offsets. -/
structure PeriodicInput (source : Grid d K) (F f : Fin d → ℕ) (c : GridVariable d K) : Prop where
  periodic : c.Periodic
  grid : c.array.grid = source
  offset : ∀ a, f a ≠ 1 → c.array.offset a = 0 ∨ c.array.offset a = 1 ∨ (c.array.offset a = 1 / 2 ∧ F a ≠ 1)

theorem PeriodicInput.shape {source : Grid d K} {F f : Fin d → ℕ} {c : GridVariable d K} (h : PeriodicInput source F f c) :
    c.array.shape = source.shape := by
  funext a; rw [(h.periodic.2 a).1, h.grid]

theorem PeriodicInput.filterable {source : Grid d K} {F f : Fin d → ℕ} {c : GridVariable d K} (h : PeriodicInput source F f c) :
    Filterable source F f c := by
  obtain ⟨r, hr, -⟩ := linear_periodic (fun _ _ => True) (fun _ _ _ _ _ => trivial) h.periodic (centerOffset c.array.offset f) trivial
  exact ⟨h.grid, h.shape, h.offset, fun a => Or.inl (h.periodic.1 a), _, hr⟩

/-- The windows of all coarse points start at `F * i + s`, for one `s` per axis. -/
theorem window_exists {o : ℚ} {F f : ℕ} (hF : F % 2 = 0 ∨ F = 1) (hf : f % 2 = 0 ∨ f = 1) (hle : F ≤ f) (hpos : 0 < F)
    (ho : f ≠ 1 → o = 0 ∨ o = 1 ∨ (o = 1 / 2 ∧ F ≠ 1)) : ∃ s : ℤ, ∀ i : ℤ, WindowAt o F f i (F * i + s) := by
  unfold WindowAt
  by_cases h1 : f = 1
  · have : F = 1 := by omega
    subst this
    exact ⟨0, fun i => by rw [if_pos h1]; ring⟩
  · obtain ⟨g, rfl⟩ : ∃ g, f = 2 * g := ⟨f / 2, by omega⟩
    rcases ho h1 with e | e | ⟨e, hne⟩
    · exact ⟨-g, fun i => by rw [if_neg h1, e]; push_cast; ring⟩
    · exact ⟨F - g, fun i => by rw [if_neg h1, e]; push_cast; ring⟩
    · obtain ⟨G, rfl⟩ : ∃ G, F = 2 * G := ⟨F / 2, by omega⟩
      exact ⟨G - g, fun i => by rw [if_neg h1, e]; push_cast; ring⟩

/-- All values of a filtered periodic variable. -/
theorem Filtered.periodic {source destination : Grid d K} {F f : Fin d → ℕ} (h : CoarserBy source destination F) (hf : FilterOK F f)
    {c r C : GridVariable d K} (hc : PeriodicInput source F f c) (hr : Filtered source destination F f c r)
    (hC : linear c (fun a => if f a = 1 then c.array.offset a else 1 / 2) = .ok C) :
    ∃ s : Idx d, (∀ a i, WindowAt (c.array.offset a) (F a) (f a) i (F a * i + s a)) ∧
      ∀ i : Idx d, InR destination.shape i → r.array.data i = windowMean source.shape f (fun a => F a * i a + s a) C.array.data := by
  choose s hs using fun a => window_exists (hf.factor a) (hf.filter a) (hf.le a) (h.factor_pos a) (hc.offset a)
  exact ⟨s, hs, fun i hi => hr.2.2.2.2 C hC i _ hi (fun a => hs a (i a)) (fun a => Or.inl (hc.periodic.1 a))⟩

theorem window_inR {s f : Fin d → ℕ} (hs : ∀ a, 0 < s a) (lo k : Idx d) : InR s (fun a => (lo a + k a) % (s a : ℤ)) := fun a =>
  ⟨Int.emod_nonneg _ (by have := hs a; omega), Int.emod_lt_of_pos _ (by have := hs a; omega)⟩

theorem card_box_nat (f : Fin d → ℕ) : (box f).card = ∏ a, f a := by
  unfold box
  rw [Fintype.card_piFinset]
  simp

/-- **C70** Constants are preserved, at every offset and with every filter size. -/
theorem C70_constants [CharZero K] {source destination : Grid d K} {F : Fin d → ℕ} (h : CoarserBy source destination F)
    (filterSize : Option (Fin d → ℕ)) (hf : FilterOK F (filterSize.getD F)) (vs : List (GridVariable d K))
    (hvs : ∀ c ∈ vs, PeriodicInput source F (filterSize.getD F) c) :
    ∃ rs, topHatDownsample source destination vs filterSize = .ok rs ∧ List.Forall₂ (fun c r => ∀ k : K,
      (∀ i, InR source.shape i → c.array.data i = k) → ∀ i, InR destination.shape i → r.array.data i = k) vs rs := by
  refine topHat_forall h filterSize hf vs (fun c hc => (hvs c hc).filterable) _ (fun c hc r hr k hk i hi => ?_)
  have hp := hvs c hc
  obtain ⟨C, hC, hCs, hCk⟩ := C23_constants c hp.periodic (fun a => if filterSize.getD F a = 1 then c.array.offset a else 1 / 2) k
    (by rw [hp.shape]; exact hk)
  obtain ⟨s, -, hs⟩ := hr.periodic h hf hp hC
  rw [hs i hi]
  unfold windowMean
  have hpos : ∀ a, 0 < source.shape a := fun a => by rw [h.size a]; exact Nat.mul_pos (h.pos a) (h.factor_pos a)
  rw [Finset.sum_congr rfl fun k _ => hCk _ (by rw [hp.shape]; exact window_inR (f := F) hpos _ _), Finset.sum_const, card_box_nat, nsmul_eq_mul]
  have hne : ((∏ a, filterSize.getD F a : ℕ) : K) ≠ 0 := by
    rw [Nat.cast_ne_zero]
    exact Finset.prod_ne_zero_iff.2 fun a _ => by have := hf.le a; have := h.factor_pos a; omega
  field_simp

theorem sum_box_mul {M : Type*} [AddCommMonoid M] (m F : Fin d → ℕ) (g : Idx d → M) :
    ∑ j ∈ box (fun a => m a * F a), g j = ∑ i ∈ box m, ∑ k ∈ box F, g fun a => F a * i a + k a := by
  rw [← Finset.sum_product']
  refine Finset.sum_nbij' (fun j => (fun a => j a / (F a : ℤ), fun a => j a % (F a : ℤ))) (fun p a => F a * p.1 a + p.2 a) ?_ ?_ ?_ ?_ ?_
  · intro j hj
    have hj := mem_box.1 hj
    rw [Finset.mem_product, mem_box, mem_box]
    have hF : ∀ a, 0 < (F a : ℤ) := fun a => by
      have := hj a
      dsimp only at this
      rcases Nat.eq_zero_or_pos (F a) with e | e
      · rw [e] at this; simp at this; omega
      · omega
    refine ⟨fun a => ⟨Int.ediv_nonneg (hj a).1 (hF a).le, ?_⟩, fun a => ⟨Int.emod_nonneg _ (hF a).ne', Int.emod_lt_of_pos _ (hF a)⟩⟩
    have := (hj a).2
    push_cast at this
    exact (Int.ediv_lt_iff_lt_mul (hF a)).2 this
  · rintro ⟨i, k⟩ hp
    rw [Finset.mem_product, mem_box, mem_box] at hp
    refine mem_box.2 fun a => ?_
    have h1 := hp.1 a
    have h2 := hp.2 a
    dsimp only at h1 h2 ⊢
    refine ⟨add_nonneg (mul_nonneg (by omega) h1.1) h2.1, ?_⟩
    push_cast
    nlinarith
  · intro j _
    funext a
    exact Int.mul_ediv_add_emod (j a) (F a)
  · rintro ⟨i, k⟩ hp
    rw [Finset.mem_product, mem_box, mem_box] at hp
    have h2 := hp.2
    simp only [Prod.mk.injEq]
    constructor <;> funext a
    · have := h2 a
      dsimp only at this
      rw [Int.add_comm, Int.add_mul_ediv_left _ _ (by omega), Int.ediv_eq_zero_of_lt this.1 this.2, zero_add]
    · have := h2 a
      dsimp only at this
      rw [Int.add_comm, Int.add_mul_emod_self_left, Int.emod_eq_of_lt this.1 this.2]
  · intro j _
    congr 1
    funext a
    exact (Int.mul_ediv_add_emod (j a) (F a)).symm

theorem sum_shift (s : Fin d → ℕ) (t : Idx d) (g : Idx d → K) :
    ∑ j ∈ box s, g (fun a => (j a + t a) % (s a : ℤ)) = ∑ j ∈ box s, g j := by
  refine Finset.sum_nbij' (fun i a => (i a + t a) % s a) (fun i a => (i a - t a) % s a) ?_ ?_ ?_ ?_ ?_
  · intro i hi
    refine mem_box.2 fun a => ?_
    have h := mem_box.1 hi a
    exact ⟨Int.emod_nonneg _ (by omega), Int.emod_lt_of_pos _ (by omega)⟩
  · intro i hi
    refine mem_box.2 fun a => ?_
    have h := mem_box.1 hi a
    exact ⟨Int.emod_nonneg _ (by omega), Int.emod_lt_of_pos _ (by omega)⟩
  · intro i hi
    funext a
    have h := mem_box.1 hi a
    simp only [Int.emod_sub_emod, add_sub_cancel_right]
    exact Int.emod_eq_of_lt h.1 h.2
  · intro i hi
    funext a
    have h := mem_box.1 hi a
    simp only [Int.emod_add_emod, sub_add_cancel]
    exact Int.emod_eq_of_lt h.1 h.2
  · intro i _
    rfl

/-- **C70** The mean over the domain is preserved when the filter size is a multiple of the factor (in particular by default): the
sum of the coarse values, each weighted by the number of fine cells in a coarse cell, is the sum of the fine values. -/
theorem C70_mean [CharZero K] {source destination : Grid d K} {F : Fin d → ℕ} (h : CoarserBy source destination F)
    (filterSize : Option (Fin d → ℕ)) (hf : FilterOK F (filterSize.getD F)) (hdvd : ∀ a, F a ∣ filterSize.getD F a)
    (vs : List (GridVariable d K)) (hvs : ∀ c ∈ vs, PeriodicInput source F (filterSize.getD F) c) :
    ∃ rs, topHatDownsample source destination vs filterSize = .ok rs ∧ List.Forall₂ (fun c r =>
      ((∏ a, F a : ℕ) : K) * ∑ i ∈ box destination.shape, r.array.data i = ∑ i ∈ box source.shape, c.array.data i) vs rs := by
  refine topHat_forall h filterSize hf vs (fun c hc => (hvs c hc).filterable) _ (fun c hc r hr => ?_)
  have hp := hvs c hc
  obtain ⟨C, hC, hCsum⟩ := linear_periodic (fun s f => ∑ i ∈ box s, f i = ∑ i ∈ box source.shape, c.array.data i) (by
    intro s ax δ f hf
    rw [← hf]
    unfold lerp
    split_ifs
    · rfl
    · exact sum_roll s ax _ f
    · rw [Finset.sum_add_distrib, ← Finset.mul_sum, ← Finset.mul_sum, sum_roll, sum_roll]
      push_cast
      ring) hp.periodic (fun a => if filterSize.getD F a = 1 then c.array.offset a else 1 / 2) (by rw [hp.shape])
  obtain ⟨s, -, hs⟩ := hr.periodic h hf hp hC
  choose q hq using hdvd
  set f := filterSize.getD F with hfdef
  have hsrc : source.shape = fun a => destination.shape a * F a := funext h.size
  have hfq : f = fun a => q a * F a := by funext a; rw [hq a]; ring
  have hne : ∀ a, f a ≠ 0 := fun a => by have := hf.le a; have := h.factor_pos a; omega
  have key : ∑ i ∈ box destination.shape, ∑ k ∈ box f, C (fun a => (F a * i a + s a + k a) % (source.shape a : ℤ)) =
      ((∏ a, q a : ℕ) : K) * ∑ i ∈ box source.shape, C i := by
    have step : ∀ i : Idx d, ∑ k ∈ box f, C (fun a => (F a * i a + s a + k a) % (source.shape a : ℤ)) =
        ∑ p ∈ box q, ∑ k ∈ box F, C (fun a => (F a * i a + s a + (F a * p a + k a)) % (source.shape a : ℤ)) := by
      intro i
      conv_lhs => rw [hfq]
      exact sum_box_mul q F _
    rw [Finset.sum_congr rfl fun i _ => step i, Finset.sum_comm]
    have inner : ∀ p : Idx d, ∑ i ∈ box destination.shape, ∑ k ∈ box F,
        C (fun a => (F a * i a + s a + (F a * p a + k a)) % (source.shape a : ℤ)) = ∑ i ∈ box source.shape, C i := by
      intro p
      rw [← sum_shift source.shape (fun a => s a + F a * p a) C]
      conv_rhs => rw [hsrc]
      rw [sum_box_mul destination.shape F]
      refine Finset.sum_congr rfl fun i _ => Finset.sum_congr rfl fun k _ => ?_
      congr 1
      funext a
      rw [h.size a]
      congr 1
      ring
    rw [Finset.sum_congr rfl fun p _ => inner p, Finset.sum_const, card_box_nat, nsmul_eq_mul]
  rw [Finset.sum_congr rfl fun i hi => hs i (mem_box.1 hi)]
  unfold windowMean
  rw [← Finset.sum_div]
  dsimp only
  rw [key, ← hCsum, hp.shape]
  have h1 : ((∏ a, f a : ℕ) : K) = ((∏ a, q a : ℕ) : K) * ((∏ a, F a : ℕ) : K) := by
    rw [hfq, Finset.prod_mul_distrib]; push_cast; ring
  have h2 : ((∏ a, f a : ℕ) : K) ≠ 0 := by
    rw [Nat.cast_ne_zero]
    exact Finset.prod_ne_zero_iff.2 fun a _ => hne a
  rw [h1] at h2 ⊢
  have h3 := left_ne_zero_of_mul h2
  have h4 := right_ne_zero_of_mul h2
  field_simp

/-- **C70** Translating a periodic variable by a whole number of coarse cells translates the result. -/
theorem C70_translation [CharZero K] {source destination : Grid d K} {F : Fin d → ℕ} (h : CoarserBy source destination F)
    (filterSize : Option (Fin d → ℕ)) (hf : FilterOK F (filterSize.getD F)) (c c' : GridVariable d K) (t : Idx d)
    (hc : PeriodicInput source F (filterSize.getD F) c) (ht : c.Translated (fun a => F a * t a) c') :
    ∃ r r', topHatDownsample source destination [c] filterSize = .ok [r] ∧
      topHatDownsample source destination [c'] filterSize = .ok [r'] ∧ r.Translated t r' := by
  have hc' : PeriodicInput source F (filterSize.getD F) c' :=
    ⟨ht.periodic.2, ht.2.2.2.1.trans hc.grid, by rw [ht.2.2.1]; exact hc.offset⟩
  obtain ⟨rs, hrs, hall⟩ := C70_window h filterSize hf [c] (fun x hx => by
    rw [List.mem_singleton] at hx; subst hx; exact hc.filterable)
  obtain ⟨rs', hrs', hall'⟩ := C70_window h filterSize hf [c'] (fun x hx => by
    rw [List.mem_singleton] at hx; subst hx; exact hc'.filterable)
  cases hall with
  | cons hr hnil =>
  cases hnil
  cases hall' with
  | cons hr' hnil =>
  cases hnil
  refine ⟨_, _, hrs, hrs', ?_⟩
  set f := filterSize.getD F with hfdef
  obtain ⟨C, hC, -⟩ := linear_periodic (fun _ _ => True) (fun _ _ _ _ _ => trivial) hc.periodic
    (fun a => if f a = 1 then c.array.offset a else 1 / 2) trivial
  obtain ⟨C', hC', hCC⟩ := (C68_linear ht (fun a => if f a = 1 then c.array.offset a else 1 / 2)).2 _ hC
  obtain ⟨s, hw, hs⟩ := hr.periodic h hf hc hC
  have hpos : ∀ a, 0 < source.shape a := fun a => by rw [h.size a]; exact Nat.mul_pos (h.pos a) (h.factor_pos a)
  refine ⟨hr'.1.trans (ht.1.trans hr.1.symm), fun a => by rw [hr.1]; exact hc.periodic.1 a, ?_, ?_, ?_, ?_, ?_, ?_⟩
  · rw [hr'.2.1, hr.2.1]; exact ht.2.2.1
  · rw [hr'.2.2.1, hr.2.2.1]
  · rw [hr.2.2.2.1, hr.2.2.1]
  · exact hr'.2.2.2.1.trans hr.2.2.2.1.symm
  · intro a
    show 0 < (_ : GridVariable d K).array.shape a
    rw [hr.2.2.2.1]; exact h.pos a
  · intro i hi
    have hsh := hr.2.2.2.1
    change InR (_ : GridVariable d K).array.shape i at hi
    rw [hsh] at hi
    rw [hr'.2.2.2.2 C' (by rw [ht.2.2.1]; exact hC') i (fun a => F a * i a + s a) hi
      (fun a => by rw [ht.2.2.1]; exact hw a (i a)) (fun a => Or.inl (hc'.periodic.1 a))]
    show _ = (_ : GridVariable d K).array.data (moved (_ : GridVariable d K).array.shape t i)
    rw [hsh, hs _ (moved_inR h.pos t i)]
    unfold windowMean
    congr 1
    refine Finset.sum_congr rfl fun k _ => ?_
    obtain ⟨-, -, -, -, -, hd⟩ := hCC.2.2
    have hd' := hd (fun a => (F a * i a + s a + k a) % (source.shape a : ℤ))
      (by show InR c.array.shape _; rw [hc.shape]; exact window_inR (f := F) hpos (fun a => F a * i a + s a) k)
    refine hd'.trans ?_
    show C (moved c.array.shape _ _) = C _
    congr 1
    funext a
    unfold moved
    dsimp only
    rw [hc.shape, h.size a]
    push_cast
    rw [Int.emod_add_emod]
    have e : (F a : ℤ) * ((i a + t a) % (destination.shape a : ℤ)) = F a * (i a + t a) - destination.shape a * F a * ((i a + t a) / (destination.shape a : ℤ)) := by
      have := Int.emod_add_mul_ediv (i a + t a) (destination.shape a : ℤ)
      linear_combination (F a : ℤ) * this
    rw [e]
    rw [show (F a : ℤ) * (i a + t a) - destination.shape a * F a * ((i a + t a) / (destination.shape a : ℤ)) + s a + k a =
      (F a * i a + s a + k a + F a * t a) + (destination.shape a * F a) * (-((i a + t a) / (destination.shape a : ℤ))) by ring,
      Int.add_mul_emod_self_left]

end JaxCfd
