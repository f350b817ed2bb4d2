import Verif.Props.Permutation

/-!
# C72: relabelling the axes — advection
-/

namespace JaxCfd
variable {d : ℕ} {σ : Equiv.Perm (Fin d)}

theorem uniqueOr_relabelled {α β γ δ : Type} [DecidableEq β] [DecidableEq δ] {err : Err} {f : α → β} {g : γ → δ} (φ : β → δ) {l : List α} {m : List γ}
    (h : List.Forall₂ (fun a b => g b = φ (f a)) l m) : RelS (fun x y => y = φ x ∧ ∀ a ∈ l, f a = x) (uniqueOr err f l) (uniqueOr err g m) := by
  intro r hr
  obtain ⟨h0, h1⟩ := uniqueOr_eq_ok.1 hr
  refine ⟨φ r, uniqueOr_eq_ok.2 ⟨?_, ?_⟩, rfl, h1⟩
  · intro e
    rw [e] at h
    exact h0 (List.forall₂_nil_right_iff.1 h)
  · clear h0 hr
    induction h with
    | nil => simp
    | cons hab _ ih =>
      intro x hx
      rcases List.mem_cons.1 hx with rfl | hx
      · rw [hab, h1 _ (by simp)]
      · exact ih (fun a ha => h1 a (by simp [ha])) x hx

theorem consistentGrid_relabelled {l m : List (GridArray d ℝ)} (h : List.Forall₂ (fun a b => b.grid = a.grid.permute σ) l m) :
    RelS (fun x y => y = x.permute σ ∧ ∀ a ∈ l, a.grid = x) (consistentGrid l) (consistentGrid m) := uniqueOr_relabelled (Grid.permute σ) h

theorem interpolationAxes_singleton {o o' : Fin d → ℚ} {ax : Fin d} : interpolationAxes o o' = [ax] ↔ ∀ a, o a ≠ o' a ↔ a = ax := by
  unfold interpolationAxes
  rw [← List.perm_singleton, List.perm_ext_iff_of_nodup ((List.nodup_finRange d).filter _) (List.nodup_singleton ax)]
  simp

theorem interpolationAxes_relabelled {o p o' p' : Fin d → ℚ} (ho : ∀ a, o' a = o (σ a)) (hp : ∀ a, p' a = p (σ a)) {ax : Fin d} (h : interpolationAxes o p = [ax]) :
    interpolationAxes o' p' = [σ.symm ax] := by
  rw [interpolationAxes_singleton] at h ⊢
  intro a
  rw [ho, hp, h, Equiv.eq_symm_apply]

/-- Relabelling the axes of the interpolated field, the offset and the velocity relabels the interpolated field. -/
def AxisEquivariant [HasNan ℝ] (fn : InterpFn d ℝ) : Prop :=
  ∀ (σ : Equiv.Perm (Fin d)) (c c' : GridVariable d ℝ) (o o' : Fin d → ℚ) (v v' : Fin d → GridVariable d ℝ) (dt : ℝ), c.Relabelled σ c' → (∀ a, o' a = o (σ a)) → VelocityRelabelled σ v v' →
    RelS (GridVariable.Relabelled σ) (fn c o v dt) (fn c' o' v' dt)

theorem jnpWhere_relabelled {p p' : NArr d Bool} {x x' y y' : NArr d ℝ} (hp : p.Transposed σ p') (hx : x.Transposed σ x') (hy : y.Transposed σ y') :
    RelS (fun a b => NArr.Transposed σ a b ∧ a.shape = x.shape) (jnpWhere p x y) (jnpWhere p' x' y') := by
  unfold jnpWhere
  by_cases hs : p.shape = x.shape ∧ x.shape = y.shape
  · have h1 : p'.shape = x'.shape := hx.shape_eq hp hs.1
    have h2 : x'.shape = y'.shape := hy.shape_eq hx hs.2
    rw [if_pos hs, if_pos ⟨h1, h2⟩]
    refine RelS.ok ⟨⟨hx.1, hx.2.1, fun i hi => ?_⟩, rfl⟩
    have hi' : InR x'.shape i := hi
    show (if p'.data i = true then x'.data i else y'.data i) = if p.data (original σ i) = true then x.data (original σ i) else y.data (original σ i)
    rw [hp.2.2 i (by rw [h1]; exact hi'), hx.2.2 i hi', hy.2.2 i (by rw [← h2]; exact hi')]
  · rw [if_neg hs]
    exact RelS.error _ _

theorem periodicBC_permute (d : ℕ) (σ : Equiv.Perm (Fin d)) : (periodicBC d : BC d ℝ).permute σ = periodicBC d := rfl

section
variable [HasNan ℝ]

theorem relabel_variable {a b : GridArray d ℝ} (h : a.Relabelled σ b) {o o' : Fin d → ℚ} (ho : ∀ a, o' a = o (σ a)) {g : Grid d ℝ} (hg : a.grid = g) {bc : BC d ℝ} (hbc : ∀ a, bc.types a = (.periodic, .periodic)) :
    GridVariable.Relabelled σ ⟨⟨a.toNArr, o, g⟩, bc⟩ ⟨⟨b.toNArr, o', g.permute σ⟩, bc.permute σ⟩ := ⟨rfl, hbc, ho, rfl, by rw [← hg]; exact h.2.2.1, h.2.2.2⟩

theorem upwindAlong_relabelled {c c' u v : GridVariable d ℝ} (hc : c.Relabelled σ c') (h : u.Relabelled σ v) {o o' : Fin d → ℚ} (ho : ∀ a, o' a = o (σ a)) (a : Fin d) :
    RelS (GridVariable.Relabelled σ) (upwindAlong c o u (σ a)) (upwindAlong c' o' v a) := by
  unfold upwindAlong
  dsimp only
  rw [hc.offset, h.offset]
  split_ifs
  · refine RelS.bind (hc.shift _ _ _ _) fun _ _ h1 => RelS.bind (consistentGrid_relabelled (.cons hc.grid (.cons h.grid .nil))) fun g g' hg => ?_
    rw [hg.1, hc.1]
    exact RelS.ok (relabel_variable h1.1 ho (h1.2.1.trans (hg.2 _ (by simp))) hc.2.1)
  · refine RelS.bind (hc.shift _ _ _ _) fun _ _ h1 => RelS.bind (hc.shift _ _ _ _) fun _ _ h2 => RelS.bind (jnpWhere_relabelled (h.2.2.2.2.2.map _) h1.1.2.2.2 h2.1.2.2.2) fun x x' hx =>
      RelS.bind (consistentGrid_relabelled (.cons hc.grid (.cons h.grid .nil))) fun g g' hg => ?_
    rw [hg.1]
    refine RelS.ok ⟨rfl, fun _ => rfl, ho, rfl, ?_, hx.1⟩
    show x.shape = g.shape
    rw [hx.2, h1.2.2, ← hg.2 c.array (by simp)]
    exact hc.2.2.2.2.1

theorem laxWendroffAlong_relabelled {c c' u v : GridVariable d ℝ} (hc : c.Relabelled σ c') (h : u.Relabelled σ v) {o o' : Fin d → ℚ} (ho : ∀ a, o' a = o (σ a)) (dt : ℝ) (a : Fin d) :
    RelS (GridVariable.Relabelled σ) (laxWendroffAlong c o u dt (σ a)) (laxWendroffAlong c' o' v dt a) := by
  unfold laxWendroffAlong
  dsimp only
  rw [hc.offset, h.offset]
  refine RelS.bind (consistentGrid_relabelled (.cons hc.grid (.cons h.grid .nil))) fun g g' hg => ?_
  obtain ⟨rfl, hg⟩ := hg
  have e1 : c.array.grid = g := hg _ (by simp)
  have e2 : u.array.grid = g := hg _ (by simp)
  have s1 : c.array.shape = g.shape := by rw [← e1]; exact hc.2.2.2.2.1
  have s2 : u.array.shape = g.shape := by rw [← e2]; exact h.2.2.2.2.1
  refine RelS.bind (hc.shift _ _ _ _) fun f f' hf => RelS.bind (hc.shift _ _ _ _) fun e e' he => ?_
  have sf : f.shape = g.shape := hf.2.2.trans s1
  have se : e.shape = g.shape := he.2.2.trans s1
  have hd := he.1.2.2.2.map2 hf.1.2.2.2 (sf.trans se.symm) (fun x y : ℝ => x - y)
  have hu := h.2.2.2.2.2.map fun x => dt / g.step (σ a) * x
  refine RelS.bind (jnpWhere_relabelled (h.2.2.2.2.2.map _)
    (hf.1.2.2.2.map2 (hu.map2 hd (se.trans s2.symm) fun q x => 1 / 2 * (1 - q) * x) (s2.trans sf.symm) fun x y => x + y)
    (he.1.2.2.2.map2 (hu.map2 hd (se.trans s2.symm) fun q x => 1 / 2 * (1 + q) * x) (s2.trans se.symm) fun x y => x - y)) fun x x' hx => RelS.ok ⟨rfl, fun _ => rfl, ho, rfl, ?_, hx.1⟩
  show x.shape = g.shape
  rw [hx.2]
  exact sf

theorem offset_eq_relabelled {o p o' p' : Fin d → ℚ} (ho : ∀ a, o' a = o (σ a)) (hp : ∀ a, p' a = p (σ a)) : o' = p' ↔ o = p := by
  constructor
  · intro h
    funext a
    have := congrFun h (σ.symm a)
    rwa [ho, hp, Equiv.apply_symm_apply] at this
  · rintro rfl
    funext a
    rw [ho, hp]

/-- **C72** Linear, upwind and Lax-Wendroff interpolation treat all axes alike. -/
theorem C72_interpolation : AxisEquivariant (d := d) linearFn ∧ AxisEquivariant (d := d) upwindFn ∧ AxisEquivariant (d := d) laxWendroff := by
  refine ⟨fun σ c c' o o' v v' dt hc ho hv => C72_linear hc ho, fun σ c c' o o' v v' dt hc ho hv => ?_, fun σ c c' o o' v v' dt hc ho hv => ?_⟩
  · unfold upwindFn upwind
    by_cases h : c.array.offset = o
    · rw [if_pos h, if_pos ((offset_eq_relabelled hc.offset ho).2 h)]
      exact RelS.ok hc
    · rw [if_neg h, if_neg (fun h' => h ((offset_eq_relabelled hc.offset ho).1 h'))]
      split
      · rename_i ax hax
        rw [interpolationAxes_relabelled hc.offset ho hax]
        dsimp only
        have h1 := upwindAlong_relabelled hc (hv (σ.symm ax)) ho (σ.symm ax)
        rwa [Equiv.apply_symm_apply] at h1
      · exact RelS.error _ _
  · unfold laxWendroff
    by_cases h : c.array.offset = o
    · rw [if_pos h, if_pos ((offset_eq_relabelled hc.offset ho).2 h)]
      exact RelS.ok hc
    · rw [if_neg h, if_neg (fun h' => h ((offset_eq_relabelled hc.offset ho).1 h'))]
      split
      · rename_i ax hax
        rw [interpolationAxes_relabelled hc.offset ho hax]
        dsimp only
        have h1 := laxWendroffAlong_relabelled hc (hv (σ.symm ax)) ho dt (σ.symm ax)
        rwa [Equiv.apply_symm_apply] at h1
      · exact RelS.error _ _

/-! ## The limiter -/

theorem tvdAxis_skip {fn : InterpFn d ℝ} {limiter : ℝ → ℝ} {o : Fin d → ℚ} {v : Fin d → GridVariable d ℝ} {dt : ℝ} {c : GridVariable d ℝ} {ax : Fin d} (h : c.array.offset ax = o ax) :
    tvdAxis fn limiter o v dt c ax = .ok c := by
  unfold tvdAxis
  rw [if_neg]
  rw [not_not, ← h, Function.update_eq_self]

theorem tvd_skip {fn : InterpFn d ℝ} {limiter : ℝ → ℝ} {o : Fin d → ℚ} {v : Fin d → GridVariable d ℝ} {dt : ℝ} {c : GridVariable d ℝ} (l : List (Fin d)) (h : ∀ a ∈ l, c.array.offset a = o a) :
    l.foldlM (tvdAxis fn limiter o v dt) c = .ok c := by
  induction l with
  | nil => rfl
  | cons a l ih =>
    rw [List.foldlM_cons, tvdAxis_skip (h a (by simp)), Except.bind_ok]
    exact ih fun b hb => h b (by simp [hb])

theorem tvdAxisBody_offset {fn : InterpFn d ℝ} {limiter : ℝ → ℝ} {o : Fin d → ℚ} {v : Fin d → GridVariable d ℝ} {dt : ℝ} {c r : GridVariable d ℝ} {ax : Fin d}
    (h : tvdAxisBody fn limiter o v dt c ax = .ok r) : r.array.offset = Function.update c.array.offset ax (o ax) ∧ ∃ low, upwind c o v = .ok low := by
  unfold tvdAxisBody at h
  obtain ⟨low, hlow, h⟩ := Except.bind_eq_ok.1 h
  obtain ⟨_, -, h⟩ := Except.bind_eq_ok.1 h
  obtain ⟨_, -, h⟩ := Except.bind_eq_ok.1 h
  obtain ⟨_, -, h⟩ := Except.bind_eq_ok.1 h
  obtain ⟨_, -, h⟩ := Except.bind_eq_ok.1 h
  obtain ⟨_, -, h⟩ := Except.bind_eq_ok.1 h
  obtain ⟨_, -, h⟩ := Except.bind_eq_ok.1 h
  obtain ⟨_, -, h⟩ := Except.bind_eq_ok.1 h
  obtain ⟨_, -, h⟩ := Except.bind_eq_ok.1 h
  obtain ⟨_, -, h⟩ := Except.bind_eq_ok.1 h
  obtain ⟨_, -, h⟩ := Except.bind_eq_ok.1 h
  rw [← Except.ok.inj h]
  exact ⟨rfl, low, hlow⟩

theorem upwind_axes {c r : GridVariable d ℝ} {o : Fin d → ℚ} {v : Fin d → GridVariable d ℝ} (h : upwind c o v = .ok r) (hne : c.array.offset ≠ o) : ∃ ax, interpolationAxes c.array.offset o = [ax] := by
  unfold upwind at h
  rw [if_neg hne] at h
  split at h
  · rename_i ax hax
    exact ⟨ax, hax⟩
  · cases h

/-- A limited interpolation works along one axis, or does nothing. -/
theorem tvd_eq_ok {fn : InterpFn d ℝ} {limiter : ℝ → ℝ} {o : Fin d → ℚ} {v : Fin d → GridVariable d ℝ} {dt : ℝ} {c r : GridVariable d ℝ} :
    tvdInterpolation fn limiter c o v dt = .ok r ↔ (c.array.offset = o ∧ r = c) ∨
      ∃ ax, (∀ a, c.array.offset a ≠ o a ↔ a = ax) ∧ o ax - c.array.offset ax = 1 / 2 ∧ tvdAxisBody fn limiter o v dt c ax = .ok r := by
  unfold tvdInterpolation
  have one : ∀ ax, (∀ a, c.array.offset a ≠ o a ↔ a = ax) → ∀ l : List (Fin d), l.Nodup → ax ∈ l →
      l.foldlM (tvdAxis fn limiter o v dt) c = if o ax - c.array.offset ax ≠ 1 / 2 then .error .notImplemented else tvdAxisBody fn limiter o v dt c ax := by
    intro ax hax l hl hm
    induction l with
    | nil => cases hm
    | cons a l ih =>
      rw [List.nodup_cons] at hl
      rw [List.foldlM_cons]
      by_cases ha : a = ax
      · subst ha
        have hne : Function.update c.array.offset a (o a) ≠ c.array.offset := fun e => (hax a).2 rfl (by rw [← congrFun e a]; simp)
        have ht : tvdAxis fn limiter o v dt c a = if o a - c.array.offset a ≠ 1 / 2 then .error .notImplemented else tvdAxisBody fn limiter o v dt c a := by
          unfold tvdAxis
          rw [if_pos hne]
        rw [ht]
        by_cases hh : o a - c.array.offset a ≠ 1 / 2
        · rw [if_pos hh]
          rfl
        · rw [if_neg hh]
          cases hb : tvdAxisBody fn limiter o v dt c a with
          | error e => rfl
          | ok r' =>
            rw [Except.bind_ok]
            refine tvd_skip l fun b hb' => ?_
            have hba : b ≠ a := fun e => hl.1 (e ▸ hb')
            rw [(tvdAxisBody_offset hb).1, Function.update_of_ne hba]
            by_contra hn
            exact hba ((hax b).1 hn)
      · have hsk : c.array.offset a = o a := by
          by_contra hn
          exact ha ((hax a).1 hn)
        rw [tvdAxis_skip hsk, Except.bind_ok]
        exact ih hl.2 (by
          rcases List.mem_cons.1 hm with h | h
          · exact absurd h.symm ha
          · exact h)
  constructor
  · intro h
    by_cases hne : c.array.offset = o
    · rw [tvd_skip _ fun a _ => congrFun hne a] at h
      exact Or.inl ⟨hne, (Except.ok.inj h).symm⟩
    · right
      have hone : ∃ ax, interpolationAxes c.array.offset o = [ax] := by
        have hex : ∃ a ∈ List.finRange d, c.array.offset a ≠ o a := by
          by_contra hn
          push Not at hn
          exact hne (funext fun a => hn a (List.mem_finRange a))
        revert h hex
        generalize List.finRange d = l
        intro h hex
        induction l with
        | nil => obtain ⟨a, ha, -⟩ := hex; cases ha
        | cons a l ih =>
          rw [List.foldlM_cons] at h
          by_cases ha : c.array.offset a = o a
          · rw [tvdAxis_skip ha, Except.bind_ok] at h
            obtain ⟨b, hb, hbo⟩ := hex
            rcases List.mem_cons.1 hb with rfl | hb
            · exact absurd ha hbo
            · exact ih h ⟨b, hb, hbo⟩
          · obtain ⟨c1, h1, -⟩ := Except.bind_eq_ok.1 h
            unfold tvdAxis at h1
            rw [if_pos fun e => ha (by rw [← congrFun e a]; simp)] at h1
            split_ifs at h1
            obtain ⟨-, low, hlow⟩ := tvdAxisBody_offset h1
            exact upwind_axes hlow hne
      obtain ⟨ax, hax⟩ := hone
      rw [interpolationAxes_singleton] at hax
      rw [one ax hax _ (List.nodup_finRange d) (List.mem_finRange ax)] at h
      split_ifs at h with hh
      exact ⟨ax, hax, not_not.1 hh, h⟩
  · rintro (⟨h, rfl⟩ | ⟨ax, hax, hh, h⟩)
    · exact tvd_skip _ fun a _ => congrFun h a
    · rw [one ax hax _ (List.nodup_finRange d) (List.mem_finRange ax), if_neg (not_not.2 hh)]
      exact h

/-- **C72** A flux limiter keeps the property, whatever the limiter. -/
theorem C72_limited (fn : InterpFn d ℝ) (hfn : AxisEquivariant fn) (limiter : ℝ → ℝ) : AxisEquivariant (tvdInterpolation fn limiter) := by
  intro σ c c' o o' v v' dt hc ho hv r hr
  rcases tvd_eq_ok.1 hr with ⟨h, rfl⟩ | ⟨ax, hax, hh, h⟩
  · exact ⟨c', tvd_eq_ok.2 (Or.inl ⟨(offset_eq_relabelled hc.offset ho).2 h, rfl⟩), hc⟩
  obtain ⟨a, rfl⟩ := σ.surjective ax
  suffices hs : RelS (GridVariable.Relabelled σ) (tvdAxisBody fn limiter o v dt c (σ a)) (tvdAxisBody fn limiter o' v' dt c' a) by
    obtain ⟨r', hr', hrr⟩ := hs r h
    refine ⟨r', tvd_eq_ok.2 (Or.inr ⟨a, fun b => ?_, by rw [ho, hc.offset]; exact hh, hr'⟩), hrr⟩
    rw [hc.offset, ho, hax]
    exact σ.injective.eq_iff
  unfold tvdAxisBody
  refine RelS.bind (C72_interpolation.2.1 σ c c' o o' v v' dt hc ho hv) fun low low' hl => RelS.bind (hfn σ c c' o o' v v' dt hc ho hv) fun hi hi' hh =>
    RelS.bind (hc.shift _ _ _ _) fun l l' h1 => RelS.bind (hc.shift _ _ _ _) fun r r' h2 => RelS.bind (hc.shift _ _ _ _) fun n n' h3 => ?_
  dsimp only
  have hst := h2.1.2.2.2.map2 hc.2.2.2.2.2 h2.2.2.symm (fun x y : ℝ => x - y)
  have hp := (hc.2.2.2.2.2.map2 h1.1.2.2.2 h1.2.2 (fun x y : ℝ => x - y)).map2 hst h2.2.2 safeDiv
  have hn := (h3.1.2.2.2.map2 h2.1.2.2.2 (h2.2.2.trans h3.2.2.symm) (fun x y : ℝ => x - y)).map2 hst (h2.2.2.trans h3.2.2.symm) safeDiv
  refine RelS.bind (jnpWhere_relabelled ((hv a).2.2.2.2.2.map _) (hp.map limiter) (hn.map limiter)) fun φ φ' hφ => ?_
  have hof : ∀ {x y : GridVariable d ℝ}, x.Relabelled σ y → y.array.offset = fun b => x.array.offset (σ b) := fun h => funext h.offset
  refine RelS.bind (uniqueOr_relabelled (f := fun o : Fin d → ℚ => o) (g := fun o : Fin d → ℚ => o) (fun p b => p (σ b)) (.cons (hof (hv a)) (.cons (hof hl) (.cons (hof hl) .nil)))) fun oo oo' hoo =>
    RelS.bind (uniqueOr_relabelled (f := fun g : Grid d ℝ => g) (g := fun g : Grid d ℝ => g) (Grid.permute σ) (.cons (hv a).grid (.cons hc.grid (.cons hc.grid .nil)))) fun g g' hg => ?_
  obtain ⟨rfl, -⟩ := hoo
  obtain ⟨rfl, hg⟩ := hg
  have e1 : c.array.grid = g := hg _ (by simp)
  have hphi : GridArray.Relabelled σ ⟨φ, oo, g⟩ ⟨φ', fun b => oo (σ b), g.permute σ⟩ := ⟨fun _ => rfl, rfl, by
    show φ.shape = g.shape
    rw [hφ.2, ← e1]
    exact hc.2.2.2.2.1, hφ.1⟩
  refine RelS.bind (hl.2.2.gmap2 hh.2.2 _) fun df df' hdf => RelS.bind' (hdf.gmap2 hphi _) fun co co' hco hcr => RelS.bind' (hl.2.2.gmap2 hcr _) fun x y hx hxy =>
    RelS.ok ⟨hc.1, hc.2.1, fun b => ?_, hc.grid, ?_, hxy.2.2.2⟩
  · show Function.update c'.array.offset a (o' a) b = Function.update c.array.offset (σ a) (o (σ a)) (σ b)
    rw [update_relabelled hc.offset, ho]
  · show x.shape = c.array.grid.shape
    obtain ⟨-, -, eg, ex⟩ := gmap2_eq_ok.1 hx
    obtain ⟨-, -, eg', ex'⟩ := gmap2_eq_ok.1 hco
    rw [hxy.2.2.1]
    have : x.grid = g := by
      rw [ex]
      show low.array.grid = g
      rw [eg, ex']
      exact eg'
    rw [this, e1]

theorem advectionFluxBC_relabelled {u v c c' : GridVariable d ℝ} (h : u.Relabelled σ v) (a : Fin d) :
    RelS (fun b b' => b' = b.permute σ ∧ ∀ a, b.types a = (.periodic, .periodic)) (advectionFluxBC u c (σ a)) (advectionFluxBC v c' a) := by
  rw [advectionFluxBC_periodic u c _ h.2.1, advectionFluxBC_periodic v c' a (by rw [h.1]; exact BC.permute_periodic h.2.1)]
  have : v.bc.cls = u.bc.cls := by rw [h.1]; rfl
  rw [this]
  by_cases hc : u.bc.cls = .homogeneous
  · rw [if_pos hc]
    exact RelS.ok ⟨rfl, fun _ => rfl⟩
  · rw [if_neg hc]
    exact RelS.error _ _

theorem advectAlignedAxes_relabelled {cs v cs' v' : Fin d → GridVariable d ℝ} (hc : VelocityRelabelled σ cs cs') (hv : VelocityRelabelled σ v v') :
    RelS (GridArray.Relabelled σ) (advectAlignedAxes cs v) (advectAlignedAxes cs' v') := by
  unfold advectAlignedAxes
  refine RelS.bind (RelS.seqFin (R := fun _ => GridArray.Relabelled σ) σ fun a => (hc a).2.2.gmap2 (hv a).2.2 _) fun fl fl' hfl =>
    RelS.bind (RelS.seqFin (R := fun _ b b' => b' = b.permute σ ∧ ∀ a, b.types a = (.periodic, .periodic)) σ fun a => advectionFluxBC_relabelled (hv a) a) fun b b' hb =>
    RelS.bind (RelS.seqFin (R := fun _ => GridVariable.Relabelled σ) σ fun a => ?_) fun x y hxy => RelS.bind (C72_divergence hxy) fun r s hrs => RelS.ok (hrs.gmap _)
  rw [(hb a).1]
  exact (hfl a).imposeBC _ (hb a).2

omit [HasNan ℝ] in
theorem hasAllPeriodic_relabelled {c c' : GridVariable d ℝ} (hc : c.Relabelled σ c') : hasAllPeriodic [c'] = true := by
  have h := hc.2.1
  unfold hasAllPeriodic isPeriodicBC
  simp [hc.1, BC.permute, h]

theorem controlVolume_relabelled {c c' : GridArray d ℝ} (ho : ∀ a, c'.offset a = c.offset (σ a)) (a b : Fin d) : controlVolumeOffsets c' a b = controlVolumeOffsets c (σ a) (σ b) := by
  unfold controlVolumeOffsets
  rw [ho]
  simp only [σ.injective.eq_iff]

/-- **C72** `advect_general` with interpolation functions that treat the axes alike: relabelling the axes of scalar and velocity relabels the tendency. -/
theorem C72_advect_general (uFn cFn : InterpFn d ℝ) (hu : AxisEquivariant uFn) (hcf : AxisEquivariant cFn) {c c' : GridVariable d ℝ} {v v' : Fin d → GridVariable d ℝ}
    (hc : c.Relabelled σ c') (hv : VelocityRelabelled σ v v') (dt : ℝ) : RelS (GridArray.Relabelled σ) (advectGeneral uFn cFn c v dt) (advectGeneral uFn cFn c' v' dt) := by
  unfold advectGeneral
  rw [if_pos (hasAllPeriodic_relabelled hc)]
  split_ifs
  · refine RelS.bind (RelS.seqFin (R := fun _ => GridVariable.Relabelled σ) σ fun a => hu σ _ _ _ _ _ _ dt (hv a) (controlVolume_relabelled hc.offset a) hv) fun av av' hav =>
      RelS.bind (RelS.seqFin (R := fun _ => GridVariable.Relabelled σ) σ fun a => hcf σ _ _ _ _ _ _ dt hc (controlVolume_relabelled hc.offset a) hav) fun ac ac' hac => ?_
    rw [advectAligned_ofFn, advectAligned_ofFn]
    exact advectAlignedAxes_relabelled hac hav
  · exact RelS.error _ _

/-- **C72** The advection schemes: linear, upwind and van Leer with limiters. -/
theorem C72_advection {c c' : GridVariable d ℝ} {v v' : Fin d → GridVariable d ℝ} (hc : c.Relabelled σ c') (hv : VelocityRelabelled σ v v') (dt : ℝ) :
    RelS (GridArray.Relabelled σ) (advectLinear c v dt) (advectLinear c' v' dt) ∧ RelS (GridArray.Relabelled σ) (advectUpwind c v dt) (advectUpwind c' v' dt) ∧
      RelS (GridArray.Relabelled σ) (advectVanLeerUsingLimiters c v dt) (advectVanLeerUsingLimiters c' v' dt) :=
  ⟨C72_advect_general _ _ C72_interpolation.1 C72_interpolation.1 hc hv dt, C72_advect_general _ _ C72_interpolation.1 C72_interpolation.2.1 hc hv dt,
    C72_advect_general _ _ C72_interpolation.1 (C72_limited _ C72_interpolation.2.2 _) hc hv dt⟩

/-! ## Linear convection -/

theorem fluxEntry_comm {av : Fin d → Fin d → GridVariable d ℝ} {i j : Fin d} (hp : ∀ a, (av i j).bc.types a = (.periodic, .periodic)) (hq : ∀ a, (av j i).bc.types a = (.periodic, .periodic))
    (h1 : (av i j).bc.cls = .homogeneous) {r : GridVariable d ℝ} (h : fluxEntry av i j = .ok r) : fluxEntry av j i = .ok r := by
  unfold fluxEntry at h ⊢
  rw [advectionFluxBC_periodic _ _ _ hp, if_pos h1, Except.bind_ok]
  rw [advectionFluxBC_periodic _ _ _ hq] at h
  split_ifs at h with h2
  · rw [Except.bind_ok] at h
    obtain ⟨p, hp', h⟩ := Except.bind_eq_ok.1 h
    obtain ⟨e1, e2, e3, rfl⟩ := gmap2_eq_ok.1 hp'
    rw [gmap2_ok (u := (av j i).array) e1.symm e2.symm e3.symm, Except.bind_ok, ← h]
    congr 1
    exact GridArray.ext' e1.symm (funext fun i => mul_comm _ _) e2.symm e3.symm
  · cases h

/-- **C72** `convect_linear`. -/
theorem C72_convect_linear {v v' : Fin d → GridVariable d ℝ} (hv : VelocityRelabelled σ v v') : RelS (TendencyRelabelled σ) (convectLinear v) (convectLinear v') := by
  unfold convectLinear
  have hal : RelS (fun r s => ∀ i j, GridVariable.Relabelled σ (r (σ i) (σ j)) (s i j)) (alignVelocities v) (alignVelocities v') := by
    unfold alignVelocities
    intro r hr
    obtain ⟨g, hg, hr⟩ := Except.bind_eq_ok.1 hr
    have hg' : consistentGrid (List.ofFn fun a => (v' a).array) = .ok (g.permute σ) := by
      obtain ⟨h0, h1⟩ := uniqueOr_eq_ok.1 hg
      refine uniqueOr_eq_ok.2 ⟨by simpa using h0, fun x hx => ?_⟩
      obtain ⟨a, rfl⟩ := (List.mem_ofFn' _ _).1 hx
      rw [(hv a).grid, h1 _ (List.mem_ofFn.2 ⟨σ a, rfl⟩)]
    rw [hg', Except.bind_ok]
    exact RelS.seqFin (R := fun _ (r s : Fin d → GridVariable d ℝ) => ∀ j, GridVariable.Relabelled σ (r (σ j)) (s j)) σ
      (fun i => RelS.seqFin (R := fun _ => GridVariable.Relabelled σ) σ fun j => C72_linear (hv i) (controlVolume_relabelled (hv i).offset j)) r hr
  refine RelS.bind' hal fun av av' hok hav => ?_
  have hbc : ∀ i j, (av i j).bc = (v i).bc := by
    unfold alignVelocities at hok
    obtain ⟨_, -, hok⟩ := Except.bind_eq_ok.1 hok
    exact fun i j => (C23_offset_and_bc _ _ _ ((seqFin_eq_ok _ _).1 ((seqFin_eq_ok _ _).1 hok i) j)).2.2
  have hper : ∀ i j a, (av i j).bc.types a = (.periodic, .periodic) := fun i j => by
    have := (hav (σ.symm i) (σ.symm j)).2.1
    rwa [Equiv.apply_symm_apply, Equiv.apply_symm_apply] at this
  have hfl : ∀ i j, RelS (GridVariable.Relabelled σ) (fluxEntry av (σ i) (σ j)) (fluxEntry av' i j) := by
    intro i j
    unfold fluxEntry
    refine RelS.bind (advectionFluxBC_relabelled (hav j i) j) fun b b' hb => RelS.bind ((hav i j).2.2.gmap2 (hav j i).2.2 _) fun x y hxy => ?_
    rw [hb.1]
    exact hxy.imposeBC _ hb.2
  refine RelS.bind (R := fun (r s : Fin d → Fin d → GridVariable d ℝ) => ∀ i j : Fin d, GridVariable.Relabelled σ (r (σ i) (σ j)) (s i j)) ?_ fun fl fl' hf =>
    RelS.seqFin (R := fun _ => GridArray.Relabelled σ) σ fun i => RelS.bind (C72_divergence (fun j => hf i j)) fun r s hrs => RelS.ok (hrs.gmap _)
  unfold velocitiesToFlux
  intro r hr
  have hr' : ∀ i j, (if i ≤ j then fluxEntry av i j else fluxEntry av j i) = .ok (r i j) := fun i j => (seqFin_eq_ok _ _).1 ((seqFin_eq_ok _ _).1 hr i) j
  have hom : ∀ i, (av i i).bc.cls = .homogeneous := by
    intro i
    have := hr' i i
    rw [if_pos le_rfl] at this
    unfold fluxEntry at this
    obtain ⟨b, hb, -⟩ := Except.bind_eq_ok.1 this
    rw [advectionFluxBC_periodic _ _ _ (hper i i)] at hb
    by_contra hn
    rw [if_neg hn] at hb
    cases hb
  have hom' : ∀ i j, (av i j).bc.cls = .homogeneous := fun i j => by rw [hbc, ← hbc i i]; exact hom i
  have hall : ∀ i j, fluxEntry av i j = .ok (r i j) := by
    intro i j
    have := hr' i j
    split_ifs at this
    · exact this
    · exact fluxEntry_comm (hper _ _) (hper _ _) (hom' _ _) this
  have : ∀ i j, ∃ s, (if i ≤ j then fluxEntry av' i j else fluxEntry av' j i) = .ok s ∧ GridVariable.Relabelled σ (r (σ i) (σ j)) s := by
    intro i j
    split_ifs
    · exact hfl i j _ (hall _ _)
    · refine hfl j i _ ?_
      exact fluxEntry_comm (hper _ _) (hper _ _) (hom' _ _) (hall _ _)
  choose s hs hR using this
  exact ⟨s, (seqFin_eq_ok _ _).2 fun i => (seqFin_eq_ok _ _).2 (hs i), hR⟩

end
end JaxCfd
