import Verif.Props.TopHat

/-! # C70, continued: bounds, walls, rejected arguments -/

set_option linter.unusedSectionVars false

namespace JaxCfd
variable {d : ℕ} {K : Type}

section ordered
variable [Field K] [LinearOrder K] [IsStrictOrderedRing K] [HasNan K]

/-- **C70** The filtered values stay within any bounds on the data, at every offset and with every filter size. -/
theorem C70_bounds {source destination : Grid d K} {F : Fin d → ℕ} (h : CoarserBy source destination F)
    (filterSize : Option (Fin d → ℕ)) (hf : FilterOK F (filterSize.getD F)) (vs : List (GridVariable d K))
    (hvs : ∀ c ∈ vs, PeriodicInput source F (filterSize.getD F) c) :
    ∃ rs, topHatDownsample source destination vs filterSize = .ok rs ∧ List.Forall₂ (fun c r => ∀ m M : K,
      (∀ i, InR source.shape i → m ≤ c.array.data i ∧ c.array.data i ≤ M) →
      ∀ i, InR destination.shape i → m ≤ r.array.data i ∧ r.array.data i ≤ M) vs rs := by
  refine topHat_forall h filterSize hf vs (fun c hc => (hvs c hc).filterable) _ (fun c hc r hr m M hb i hi => ?_)
  have hp := hvs c hc
  obtain ⟨C, hC, hCs, hCb⟩ := C23_bounds c hp.periodic (fun a => if filterSize.getD F a = 1 then c.array.offset a else 1 / 2) m M
    (by rw [hp.shape]; exact hb)
  obtain ⟨s, -, hs⟩ := hr.periodic h hf hp hC
  rw [hs i hi]
  unfold windowMean
  have hpos : ∀ a, 0 < source.shape a := fun a => by rw [h.size a]; exact Nat.mul_pos (h.pos a) (h.factor_pos a)
  have hne : (0 : K) < ((∏ a, filterSize.getD F a : ℕ) : K) := by
    rw [Nat.cast_pos]
    exact Finset.prod_pos fun a _ => by have := hf.le a; have := h.factor_pos a; omega
  have hb' := fun k : Idx d => hCb _ (by rw [hp.shape]; exact window_inR (f := F) hpos (fun a => F a * i a + s a) k)
  rw [le_div_iff₀ hne, div_le_iff₀ hne, ← card_box_nat]
  constructor
  · have := Finset.card_nsmul_le_sum (box (filterSize.getD F)) _ m fun k _ => (hb' k).1
    rw [nsmul_eq_mul, mul_comm] at this
    exact this
  · have := Finset.sum_le_card_nsmul (box (filterSize.getD F)) _ M fun k _ => (hb' k).2
    rw [nsmul_eq_mul, mul_comm] at this
    exact this

end ordered

variable [Field K] [HasNan K]

theorem continued_upper (bc : BC d K) (u : GridArray d K) (ax : Fin d) (hD : (bc.types ax).2 = .dirichlet) (w : ℕ)
    (hw : w ≤ u.grid.shape ax) (j : ℤ) (h0 : (u.grid.shape ax : ℤ) - w ≤ j) (h1 : j < u.grid.shape ax + w) (i : Idx d) :
    continued bc u ax (Function.update i ax j) + continued bc u ax (Function.update i ax (2 * u.grid.shape ax - 1 - j)) =
      2 * (bc.constantValues ax).2 := by
  have hnp : bc.types ax ≠ (.periodic, .periodic) := fun e => by rw [e] at hD; cases hD
  unfold continued
  simp only [Function.update_self, Function.update_idem]
  rw [if_neg hnp, if_neg hnp]
  by_cases hj : (u.grid.shape ax : ℤ) ≤ j
  · rw [if_neg (by omega), if_pos hj, if_pos hD, if_neg (by omega), if_neg (by omega)]
    ring
  · rw [if_neg (by omega), if_neg hj, if_neg (by omega), if_pos (by omega), if_pos hD]
    rw [show 2 * (u.grid.shape ax : ℤ) - 1 - (2 * u.grid.shape ax - 1 - j) = j by ring]
    ring

theorem continued_lower (bc : BC d K) (u : GridArray d K) (ax : Fin d) (hD : (bc.types ax).1 = .dirichlet) (w : ℕ)
    (hw : w ≤ u.grid.shape ax) (j : ℤ) (h0 : -(w : ℤ) ≤ j) (h1 : j < w) (i : Idx d) :
    continued bc u ax (Function.update i ax j) + continued bc u ax (Function.update i ax (-1 - j)) =
      2 * (bc.constantValues ax).1 := by
  have hnp : bc.types ax ≠ (.periodic, .periodic) := fun e => by rw [e] at hD; cases hD
  unfold continued
  simp only [Function.update_self, Function.update_idem]
  rw [if_neg hnp, if_neg hnp]
  by_cases hj : j < 0
  · rw [if_pos hj, if_pos hD, if_neg (by omega), if_neg (by omega)]
    ring
  · rw [if_neg hj, if_neg (by omega), if_pos (by omega), if_pos hD]
    rw [show -1 - (-1 - j) = j by ring]
    ring

theorem mean_reflect (f : ℕ) (E : ℤ → K) (b : K) [CharZero K] (hf : f ≠ 0)
    (h : ∀ k : ℤ, 0 ≤ k → k < f → E k + E (f - 1 - k) = 2 * b) : ∑ k ∈ Finset.Ico (0 : ℤ) f, E k / (f : K) = b := by
  have hrev : ∑ k ∈ Finset.Ico (0 : ℤ) f, E (f - 1 - k) = ∑ k ∈ Finset.Ico (0 : ℤ) f, E k := by
    refine Finset.sum_nbij' (fun k => f - 1 - k) (fun k => f - 1 - k) ?_ ?_ ?_ ?_ ?_
    · intro k hk; rw [Finset.mem_Ico] at hk ⊢; omega
    · intro k hk; rw [Finset.mem_Ico] at hk ⊢; omega
    · intro k _; ring
    · intro k _; ring
    · intro k _; rfl
  have hsum : ∑ k ∈ Finset.Ico (0 : ℤ) f, (E k + E (f - 1 - k)) = (f : K) * (2 * b) := by
    rw [Finset.sum_congr rfl fun k hk => h k (Finset.mem_Ico.1 hk).1 (Finset.mem_Ico.1 hk).2, Finset.sum_const, nsmul_eq_mul]
    simp
  rw [Finset.sum_add_distrib, hrev] at hsum
  rw [← Finset.sum_div]
  have hne : (f : K) ≠ 0 := by exact_mod_cast hf
  field_simp
  linear_combination hsum / 2

/-- The value at a point on a wall, all other windows being clear of walls. -/
theorem topHat_wall [CharZero K] {source destination : Grid d K} {F f : Fin d → ℕ} (h : CoarserBy source destination F)
    (hf : FilterOK F f) (c : GridVariable d K) (hc : Filterable source F f c) (ax : Fin d) (i lo : Idx d)
    (hi : InR destination.shape i) (hw : ∀ a, WindowAt (c.array.offset a) (F a) (f a) (i a) (lo a))
    (hin : ∀ a, a ≠ ax → c.bc.types a = (.periodic, .periodic) ∨ (0 ≤ lo a ∧ lo a + f a ≤ source.shape a)) (b : K)
    (hb : ∀ u : GridArray d K, u.grid.shape ax = source.shape ax → ∀ (j : Idx d) (k : ℤ), 0 ≤ k → k < f ax →
      continued c.bc u ax (Function.update j ax (lo ax + k)) + continued c.bc u ax (Function.update j ax (lo ax + (f ax - 1 - k))) = 2 * b)
    (r : GridVariable d K) (hr : topHatOne source destination F f c = .ok r) : r.array.data i = b := by
  obtain ⟨C, hC⟩ := hc.interp
  obtain ⟨hcenter, s1, g1, hax, hpad⟩ := hc.centered h hf hC
  unfold topHatOne at hr
  rw [if_neg (by simp [hc.grid]), hC, Except.bind_ok] at hr
  obtain ⟨R, hR, hr⟩ := Except.bind_eq_ok.1 hr
  injection hr with hr
  subst hr
  show R.data i = b
  obtain ⟨l1, l2, hl⟩ := List.append_of_mem (List.mem_finRange ax)
  have hnd := List.nodup_finRange d
  rw [hl] at hnd hR
  obtain ⟨n1, n2, n3⟩ := List.nodup_append.1 hnd
  have hne1 : ∀ a ∈ l1, a ≠ ax := fun a ha => n3 a ha ax (List.mem_cons_self ..)
  have hax1 : ax ∉ l1 := fun hm => hne1 ax hm rfl
  have hax2 : ax ∉ l2 := (List.nodup_cons.1 n2).1
  have hne2 : ∀ a ∈ l2, a ∉ l1 := fun a ha hm => n3 a hm a (List.mem_cons_of_mem _ ha) rfl
  rw [List.foldlM_append] at hR
  obtain ⟨u1, e1, u1s, u1o, u1g, -, -⟩ := topHat_fold c.bc source destination c.array.offset F f l1 C.array n1
    (fun a _ => by rw [s1, g1]) (fun a _ => hax a) (fun a _ => hpad a)
  rw [e1, Except.bind_ok, List.foldlM_cons] at hR
  have t1 : u1.shape ax = C.array.shape ax := by rw [u1s, if_neg hax1]
  have t2 : u1.grid.shape ax = C.array.grid.shape ax := by rw [u1g, if_neg hax1]
  have t3 : u1.offset ax = C.array.offset ax := by rw [u1o, if_neg hax1]
  obtain ⟨u2, e2, u2s, u2o, u2g, u2d⟩ := topHatAxis_ok c.bc source destination c.array.offset F f u1 ax
    (by rw [t1, t2, s1, g1]) (by rw [t1]; exact hax ax)
    (by have := hpad ax; unfold BC.Paddable at this ⊢; rw [t2, t3]; exact this)
  rw [e2, Except.bind_ok] at hR
  have hsame : ∀ a ∈ l2, u2.shape a = C.array.shape a ∧ u2.grid.shape a = C.array.grid.shape a ∧ u2.offset a = C.array.offset a := by
    intro a ha
    have hn : a ≠ ax := fun e => hax2 (e ▸ ha)
    have hm := hne2 a ha
    refine ⟨?_, ?_, ?_⟩
    · rw [u2s, Function.update_of_ne hn, u1s, if_neg hm]
    · rw [u2g]; dsimp only; rw [Function.update_of_ne hn, u1g, if_neg hm]
    · rw [u2o, Function.update_of_ne hn, u1o, if_neg hm]
  obtain ⟨R', e3, -, -, -, -, R'd⟩ := topHat_fold c.bc source destination c.array.offset F f l2 u2 (List.nodup_cons.1 n2).2
    (fun a ha => by rw [(hsame a ha).1, (hsame a ha).2.1, s1, g1]) (fun a ha => by rw [(hsame a ha).1]; exact hax a)
    (fun a ha => by
      have := hpad a
      unfold BC.Paddable at this ⊢
      rw [(hsame a ha).2.1, (hsame a ha).2.2]
      exact this)
  rw [e3] at hR
  injection hR with hR
  subst hR
  rw [R'd i lo (fun a _ => hi a) (fun a _ => hw a) (fun a ha => by
    rw [(hsame a ha).1, s1]
    exact hin a (fun e => hax2 (e ▸ ha)))]
  have hval : ∀ k : Idx d, u2.data (fun a => if a ∈ l2 then (lo a + k a) % (u2.shape a : ℤ) else i a) = b := by
    intro k
    rw [u2d _ (lo ax) (by rw [if_neg hax2]; exact (hi ax).1) (by rw [if_neg hax2]; exact (hi ax).2) (by rw [if_neg hax2]; exact hw ax)]
    refine mean_reflect (f ax) (fun k' => continued c.bc u1 ax (Function.update _ ax (lo ax + k'))) b ?_ ?_
    · have := hf.le ax; have := h.factor_pos ax; omega
    · intro k' h0 h1
      exact hb u1 (by rw [t2, g1]) _ k' h0 h1
  rw [Finset.sum_congr rfl fun k _ => hval k, Finset.sum_const, card_box_nat, nsmul_eq_mul]
  have hprod : (((∏ a, if a ∈ l2 then f a else 1 : ℕ)) : K) = (l2.map fun a => (f a : K)).prod := by
    rw [Nat.cast_prod]
    have : ∀ a, (((if a ∈ l2 then f a else 1 : ℕ)) : K) = if a ∈ l2 then (f a : K) else 1 := fun a => by split_ifs <;> simp
    rw [Finset.prod_congr rfl fun a _ => this a, ← Finset.prod_filter, ← List.prod_toFinset _ (List.nodup_cons.1 n2).2]
    congr 1
    ext a
    simp
  rw [hprod]
  have hne : (l2.map fun a => (f a : K)).prod ≠ 0 := by
    rw [← hprod, Nat.cast_ne_zero]
    refine Finset.prod_ne_zero_iff.2 fun a _ => ?_
    have := hf.le a; have := h.factor_pos a
    split_ifs <;> omega
  field_simp

/-- **C70** The coarse values on a Dirichlet wall are the wall values: for a variable stored at the upper faces along `ax`, the
last layer carries the upper boundary value; for one stored at the lower faces the first layer carries the lower one (at points
whose windows along the other axes are clear of walls). -/
theorem C70_wall [CharZero K] {source destination : Grid d K} {F : Fin d → ℕ} (h : CoarserBy source destination F)
    (filterSize : Option (Fin d → ℕ)) (hf : FilterOK F (filterSize.getD F)) (c : GridVariable d K)
    (hc : Filterable source F (filterSize.getD F) c) (ax : Fin d) (hax : filterSize.getD F ax ≠ 1) (i lo : Idx d)
    (hi : InR destination.shape i) (hw : ∀ a, WindowAt (c.array.offset a) (F a) (filterSize.getD F a) (i a) (lo a))
    (hin : ∀ a, a ≠ ax → c.bc.types a = (.periodic, .periodic) ∨ (0 ≤ lo a ∧ lo a + filterSize.getD F a ≤ source.shape a)) :
    ∃ r, topHatDownsample source destination [c] filterSize = .ok [r] ∧
      ((c.bc.types ax).2 = .dirichlet → c.array.offset ax = 1 → i ax = (destination.shape ax : ℤ) - 1 →
        r.array.data i = (c.bc.constantValues ax).2) ∧
      ((c.bc.types ax).1 = .dirichlet → c.array.offset ax = 0 → i ax = 0 → r.array.data i = (c.bc.constantValues ax).1) := by
  rw [topHat_unfold h filterSize hf]
  set f := filterSize.getD F with hfdef
  obtain ⟨r, hr, -⟩ := topHatOne_ok h hf c hc
  have hev : f ax % 2 = 0 := by rcases hf.filter ax with e | e <;> [exact e; exact absurd e hax]
  have hwax := hw ax
  unfold WindowAt at hwax
  rw [if_neg hax] at hwax
  obtain ⟨g, hg⟩ : ∃ g, f ax = 2 * g := ⟨f ax / 2, by omega⟩
  have hsize := h.size ax
  refine ⟨r, by simp [hr, Except.bind_ok, Except.pure_eq_ok], fun hD ho hia => ?_, fun hD ho hia => ?_⟩
  · have hlo : lo ax = source.shape ax - g := by
      have : (lo ax : ℚ) = (((source.shape ax : ℤ) - g : ℤ) : ℚ) := by
        rw [hwax, ho, hia, hg, hsize]; push_cast; ring
      exact_mod_cast this
    have hle : g ≤ source.shape ax := by
      rcases hc.bc ax with e | ⟨-, -, -, e⟩
      · rw [e] at hD; cases hD
      · change f ax / 2 ≤ _ at e; omega
    refine topHat_wall h hf c hc ax i lo hi hw hin _ (fun u hu j k h0 h1 => ?_) r hr
    have := continued_upper c.bc u ax hD g (by omega) (lo ax + k) (by omega) (by omega) j
    rw [show 2 * (u.grid.shape ax : ℤ) - 1 - (lo ax + k) = lo ax + (f ax - 1 - k) by rw [hu, hlo, hg]; push_cast; ring] at this
    exact this
  · have hlo : lo ax = -(g : ℤ) := by
      have : (lo ax : ℚ) = ((-(g : ℤ) : ℤ) : ℚ) := by
        rw [hwax, ho, hia, hg]; push_cast; ring
      exact_mod_cast this
    have hle : g ≤ source.shape ax := by
      rcases hc.bc ax with e | ⟨-, -, -, e⟩
      · rw [e] at hD; cases hD
      · change f ax / 2 ≤ _ at e; omega
    refine topHat_wall h hf c hc ax i lo hi hw hin _ (fun u hu j k h0 h1 => ?_) r hr
    have := continued_lower c.bc u ax hD g (by omega) (lo ax + k) (by omega) (by omega) j
    rw [show -1 - (lo ax + k) = lo ax + (f ax - 1 - k) by rw [hlo, hg]; push_cast; ring] at this
    exact this

/-! ## Rejected arguments -/

/-- **C70** Grids over different domains, a step ratio that is not a whole number, odd factors or filter sizes other than 1, and
filters smaller than the factor fail an assertion. -/
theorem C70_rejects_grids [CharZero K] (source destination : Grid d K) (filterSize : Option (Fin d → ℕ)) (vs : List (GridVariable d K)) :
    (destination.domain ≠ source.domain → topHatDownsample source destination vs filterSize = .error .assertion) ∧
    (∀ a, (¬ ∃ n : ℕ, destination.step a / source.step a = n) → topHatDownsample source destination vs filterSize = .error .assertion) ∧
    ∀ F, CoarserBy source destination F →
      ¬ FilterOK F (filterSize.getD F) → topHatDownsample source destination vs filterSize = .error .assertion := by
  refine ⟨fun h => ?_, fun a h => ?_, fun F h hf => ?_⟩
  · unfold topHatDownsample; rw [if_pos h]
  · unfold topHatDownsample
    by_cases h0 : destination.domain ≠ source.domain
    · rw [if_pos h0]
    · rw [if_neg h0, dif_neg fun hall => h (hall a)]
  · have hex : ∀ a, ∃ n : ℕ, destination.step a / source.step a = n := fun a => ⟨F a, h.ratio a⟩
    have hch : (fun a => (hex a).choose) = F := by
      funext a
      have := (h.ratio a).symm.trans (hex a).choose_spec
      exact_mod_cast this.symm
    unfold topHatDownsample
    rw [if_neg (by simp [h.domain]), dif_pos hex, hch]
    unfold topHatWith
    by_cases h1 : ∀ a, acceptableFilter (filterSize.getD F a)
    · by_cases h2 : ∀ a, acceptableFilter (F a)
      · by_cases h3 : ∀ a, F a ≤ filterSize.getD F a
        · exact absurd ⟨h2, h1, h3⟩ hf
        · rw [if_neg (fun h' => h' h1), if_neg (fun h' => h' h2), if_pos h3]
      · rw [if_neg (fun h' => h' h1), if_pos h2]
    · rw [if_pos h1]

theorem foldlM_step {α β : Type} {g : β → α → Except Err β} {l : List α} {u r : β} (h : l.foldlM g u = .ok r) {a : α} (ha : a ∈ l) :
    ∃ x y, g x a = .ok y := by
  induction l generalizing u with
  | nil => cases ha
  | cons b l ih =>
    rw [List.foldlM_cons] at h
    obtain ⟨m, hm, h⟩ := Except.bind_eq_ok.1 h
    rcases List.mem_cons.1 ha with rfl | ha
    · exact ⟨u, m, hm⟩
    · exact ih h ha

/-- **C70** A variable on another grid is rejected with the error for inconsistent grids; a filtered axis along which a variable
is stored neither at a face nor at the center makes the call fail. -/
theorem C70_rejects_variables [CharZero K] {source destination : Grid d K} {F : Fin d → ℕ} (h : CoarserBy source destination F)
    (filterSize : Option (Fin d → ℕ)) (hf : FilterOK F (filterSize.getD F)) (c : GridVariable d K) (vs : List (GridVariable d K)) :
    (c.array.grid ≠ source → topHatDownsample source destination (c :: vs) filterSize = .error .grid) ∧
    (c ∈ vs → ∀ a, filterSize.getD F a ≠ 1 → c.array.offset a ≠ 0 → c.array.offset a ≠ 1 / 2 → c.array.offset a ≠ 1 →
      ∀ rs, topHatDownsample source destination vs filterSize ≠ .ok rs) := by
  refine ⟨fun hg => ?_, fun hm a hfa h0 h1 h2 rs hrs => ?_⟩
  · rw [topHat_unfold h filterSize hf, List.mapM_cons]
    have : topHatOne source destination F (filterSize.getD F) c = .error .grid := by
      unfold topHatOne; rw [if_pos hg]
    rw [this]
    rfl
  · rw [topHat_unfold h filterSize hf, mapM_eq_ok] at hrs
    obtain ⟨r, hr⟩ : ∃ r, topHatOne source destination F (filterSize.getD F) c = .ok r := by
      clear hf
      induction hrs with
      | nil => cases hm
      | cons hx _ ih =>
        rcases List.mem_cons.1 hm with rfl | hm
        · exact ⟨_, hx⟩
        · exact ih hm
    unfold topHatOne at hr
    split_ifs at hr with hg
    obtain ⟨C, -, hr⟩ := Except.bind_eq_ok.1 hr
    obtain ⟨R, hR, -⟩ := Except.bind_eq_ok.1 hr
    obtain ⟨x, y, hxy⟩ := foldlM_step hR (List.mem_finRange a)
    unfold topHatAxis at hxy
    obtain ⟨p, -, hxy⟩ := Except.bind_eq_ok.1 hxy
    obtain ⟨q, -, hxy⟩ := Except.bind_eq_ok.1 hxy
    obtain ⟨s, hs, -⟩ := Except.bind_eq_ok.1 hxy
    unfold combSlice at hs
    rw [if_pos (by have := hf.le a; have := h.factor_pos a; omega), if_neg h0, if_neg h1, if_neg h2] at hs
    cases hs

end JaxCfd
