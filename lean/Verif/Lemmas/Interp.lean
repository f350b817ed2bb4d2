import Verif.Model.Interpolation
import Verif.Lemmas.FD
import Mathlib.Algebra.Order.Field.Basic

set_option linter.unusedSectionVars false

namespace JaxCfd
variable {d : ℕ} {K : Type}

section
variable [Field K] [HasNan K]

/-- Weight of the lower neighbour in linear interpolation by `δ`. -/
abbrev floorWeight (δ : ℚ) : ℚ := (⌈δ⌉ : ℚ) - δ

/-- Closed form of the linear interpolation of a periodic variable by `δ` along one axis. -/
def lerp (K : Type) [Field K] (s : Fin d → ℕ) (ax : Fin d) (δ : ℚ) (f : Idx d → K) : Idx d → K := fun i =>
  if δ = 0 then f i
  else if ((⌊δ⌋ : ℤ) : ℚ) = δ then f (rollIdx s ax ⌊δ⌋ i)
  else (floorWeight δ : K) * f (rollIdx s ax ⌊δ⌋ i) + ((1 - floorWeight δ : ℚ) : K) * f (rollIdx s ax ⌈δ⌉ i)

theorem linearAlongAxis_periodic {c : GridVariable d K} (h : c.Periodic) (o : ℚ) (ax : Fin d) :
    linearAlongAxis c o ax = .ok ⟨⟨⟨c.array.shape, lerp K c.array.shape ax (o - c.array.offset ax) c.array.data⟩,
      Function.update c.array.offset ax o, c.array.grid⟩, c.bc⟩ := by
  unfold linearAlongAxis
  by_cases h0 : o - c.array.offset ax = 0
  · have ho : o = c.array.offset ax := by linarith
    simp only [h0, if_true]
    rw [ho, Function.update_eq_self]
    have : lerp K c.array.shape ax 0 c.array.data = c.array.data := by funext i; simp [lerp]
    rw [this]
  · by_cases h1 : ((⌊o - c.array.offset ax⌋ : ℤ) : ℚ) = o - c.array.offset ax
    · simp only [h0, if_false, h1, if_true]
      rw [h.shift, Except.bind_ok, Except.pure_eq_ok]
      have : lerp K c.array.shape ax (o - c.array.offset ax) c.array.data = fun i =>
          c.array.data (rollIdx c.array.shape ax ⌊o - c.array.offset ax⌋ i) := by
        funext i; simp only [lerp, h0, if_false, h1, if_true]
      rw [this]
    · simp only [h0, if_false, h1]
      rw [h.shift, Except.bind_ok, h.shift, Except.bind_ok, Except.pure_eq_ok]
      have : lerp K c.array.shape ax (o - c.array.offset ax) c.array.data = fun i =>
          (floorWeight (o - c.array.offset ax) : K) * c.array.data (rollIdx c.array.shape ax ⌊o - c.array.offset ax⌋ i) +
          ((1 - floorWeight (o - c.array.offset ax) : ℚ) : K) *
            c.array.data (rollIdx c.array.shape ax ⌈o - c.array.offset ax⌉ i) := by
        funext i; simp only [lerp, h0, if_false, h1]
      rw [this]
      rfl

/-- A property of all entries that is preserved by interpolation along one axis holds for `linear`. -/
theorem linear_periodic (P : (Fin d → ℕ) → (Idx d → K) → Prop)
    (hP : ∀ s ax δ f, P s f → P s (lerp K s ax δ f))
    {c : GridVariable d K} (h : c.Periodic) (o : Fin d → ℚ) (hc : P c.array.shape c.array.data) :
    ∃ f, linear c o = .ok ⟨⟨⟨c.array.shape, f⟩, o, c.array.grid⟩, c.bc⟩ ∧ P c.array.shape f := by
  have key : ∀ (l : List (Fin d)) (c : GridVariable d K), c.Periodic → P c.array.shape c.array.data → l.Nodup →
      ∃ f, l.foldlM (fun c a => linearAlongAxis c (o a) a) c =
        .ok ⟨⟨⟨c.array.shape, f⟩, fun a => if a ∈ l then o a else c.array.offset a, c.array.grid⟩, c.bc⟩ ∧
        P c.array.shape f := by
    intro l
    induction l with
    | nil => intro c _ hc _; exact ⟨c.array.data, by simp [Except.pure_eq_ok], hc⟩
    | cons a l ih =>
      intro c hper hc hl
      rw [List.foldlM_cons, linearAlongAxis_periodic hper, Except.bind_ok]
      obtain ⟨f, hf, hPf⟩ := ih ⟨⟨⟨c.array.shape, lerp K c.array.shape a (o a - c.array.offset a) c.array.data⟩,
        Function.update c.array.offset a (o a), c.array.grid⟩, c.bc⟩ (hper.mk' (fun _ => rfl) rfl rfl)
        (hP _ _ _ _ hc) (List.nodup_cons.1 hl).2
      refine ⟨f, ?_, hPf⟩
      rw [hf]
      congr 3
      funext b
      by_cases hb : b = a
      · subst hb; simp [(List.nodup_cons.1 hl).1]
      · simp [hb]
  obtain ⟨f, hf, hPf⟩ := key (List.finRange d) c h hc (List.nodup_finRange d)
  refine ⟨f, ?_, hPf⟩
  unfold linear
  rw [hf]
  simp

/-- interpolation to the offset the variable already has -/
theorem linear_skip (c : GridVariable d K) (t : Fin d → ℚ) (ht : ∀ a, t a = c.array.offset a) : linear c t = .ok c := by
  have skip : ∀ (l : List (Fin d)), l.foldlM (fun c a => linearAlongAxis c (t a) a) c = .ok c := by
    intro l
    induction l with
    | nil => rfl
    | cons a l ih =>
      have h0 : linearAlongAxis c (t a) a = .ok c := by
        unfold linearAlongAxis
        simp [ht a]
      rw [List.foldlM_cons, h0, Except.bind_ok, ih]
  exact skip _

theorem linearAlongAxis_meta {c r : GridVariable d K} {o : ℚ} {ax : Fin d} (h : linearAlongAxis c o ax = .ok r) :
    r.array.offset = Function.update c.array.offset ax o ∧ r.array.grid = c.array.grid ∧ r.bc = c.bc := by
  unfold linearAlongAxis at h
  by_cases h0 : o - c.array.offset ax = 0
  · simp only [h0, if_true] at h
    injection h with h; subst h
    have : o = c.array.offset ax := by linarith
    subst this
    exact ⟨by rw [Function.update_eq_self], rfl, rfl⟩
  · by_cases h1 : ((⌊o - c.array.offset ax⌋ : ℤ) : ℚ) = o - c.array.offset ax
    · simp only [h0, if_false, h1, if_true] at h
      obtain ⟨p, -, h⟩ := Except.bind_eq_ok.1 h
      injection h with h; subst h
      exact ⟨rfl, rfl, rfl⟩
    · simp only [h0, if_false, h1] at h
      obtain ⟨p, -, h⟩ := Except.bind_eq_ok.1 h
      obtain ⟨q, -, h⟩ := Except.bind_eq_ok.1 h
      injection h with h; subst h
      exact ⟨rfl, rfl, rfl⟩

/-- `linear` along one axis only, under any boundary conditions -/
theorem linear_eq_along (c : GridVariable d K) (ax : Fin d) (o : ℚ) {r : GridVariable d K}
    (h : linearAlongAxis c o ax = .ok r) (hr : r.array.offset = Function.update c.array.offset ax o) :
    linear c (Function.update c.array.offset ax o) = .ok r := by
  have skip : ∀ (l : List (Fin d)) (c' : GridVariable d K) (t : Fin d → ℚ),
      (∀ a ∈ l, t a = c'.array.offset a) →
      l.foldlM (fun c a => linearAlongAxis c (t a) a) c' = .ok c' := by
    intro l
    induction l with
    | nil => intro c' t _; rfl
    | cons a l ih =>
      intro c' t ht
      have h0 : linearAlongAxis c' (t a) a = .ok c' := by
        unfold linearAlongAxis
        simp [ht a (by simp)]
      rw [List.foldlM_cons, h0, Except.bind_ok, ih c' t (fun b hb => ht b (by simp [hb]))]
  have run : ∀ (l : List (Fin d)), l.Nodup → ax ∈ l →
      l.foldlM (fun c' a => linearAlongAxis c' (Function.update c.array.offset ax o a) a) c = .ok r := by
    intro l
    induction l with
    | nil => intro _ h; simp at h
    | cons a l ih =>
      intro hl hmem
      rw [List.foldlM_cons]
      by_cases ha : a = ax
      · subst ha
        rw [Function.update_self, h, Except.bind_ok, skip]
        intro b hb
        rw [hr]
      · have h0 : linearAlongAxis c (Function.update c.array.offset ax o a) a = .ok c := by
          unfold linearAlongAxis
          simp [Function.update_of_ne ha]
        rw [h0, Except.bind_ok]
        exact ih (List.nodup_cons.1 hl).2 (by simpa [Ne.symm ha] using hmem)
  unfold linear
  exact run _ (List.nodup_finRange d) (List.mem_finRange ax)

/-- Linear interpolation to an offset that differs along one axis only. -/
theorem linear_one_axis {c : GridVariable d K} (h : c.Periodic) (ax : Fin d) (o : ℚ) :
    linear c (Function.update c.array.offset ax o) =
      .ok ⟨⟨⟨c.array.shape, lerp K c.array.shape ax (o - c.array.offset ax) c.array.data⟩,
        Function.update c.array.offset ax o, c.array.grid⟩, c.bc⟩ :=
  linear_eq_along c ax o (linearAlongAxis_periodic h o ax) rfl

end

theorem interpolationAxes_update (o : Fin d → ℚ) (ax : Fin d) (q : ℚ) (h : q ≠ o ax) :
    interpolationAxes o (Function.update o ax q) = [ax] := by
  unfold interpolationAxes
  have : ∀ a ∈ List.finRange d, (decide (o a ≠ Function.update o ax q a)) = (a == ax) := by
    intro a _
    by_cases ha : a = ax
    · subst ha; simp [Ne.symm h]
    · simp [ha]
  rw [List.filter_congr this]
  have h2 := (List.nodup_finRange d).filter (fun a => a == ax)
  have h3 : ∀ a, a ∈ (List.finRange d).filter (fun a => a == ax) ↔ a = ax := by simp
  generalize (List.finRange d).filter (fun a => a == ax) = l at h2 h3
  match l with
  | [] => exact absurd ((h3 ax).2 rfl) (by simp)
  | [b] => rw [(h3 b).1 (by simp)]
  | b :: e :: l =>
    have q1 := (h3 b).1 (by simp)
    have q2 := (h3 e).1 (by simp)
    rw [q1, q2] at h2
    simp at h2

theorem floor_half : ⌊(1 / 2 : ℚ)⌋ = 0 := by norm_num
theorem ceil_half : ⌈(1 / 2 : ℚ)⌉ = 1 := by norm_num [Int.ceil_eq_iff]

/-- interpolation to the upper face is the average of the two adjacent cells -/
theorem lerp_half [Field K] [CharZero K] (s : Fin d → ℕ) (ax : Fin d) (f : Idx d → K) {i : Idx d} (hi : InR s i) :
    lerp K s ax (1 / 2) f i = (f i + f (rollIdx s ax 1 i)) / 2 := by
  unfold lerp floorWeight
  rw [floor_half, ceil_half, if_neg (by norm_num), if_neg (by norm_num), rollIdx_zero hi]
  push_cast
  ring

section
variable [Field K] [LinearOrder K] [HasNan K]

theorem jnpWhere_ok {cond : NArr d Bool} {x y : NArr d K} (h1 : cond.shape = x.shape) (h2 : x.shape = y.shape) :
    jnpWhere cond x y = .ok ⟨x.shape, fun i => if cond.data i = true then x.data i else y.data i⟩ := by
  unfold jnpWhere; rw [if_pos ⟨h1, h2⟩]

/-- Closed form of upwind interpolation to the upper face. -/
theorem upwind_half {c : GridVariable d K} (h : c.Periodic) (ax : Fin d) (v : Fin d → GridVariable d K)
    (hs : (v ax).array.shape = c.array.shape) (hg : (v ax).array.grid = c.array.grid)
    (ho : (v ax).array.offset ax = c.array.offset ax + 1 / 2) :
    upwind c (Function.update c.array.offset ax (c.array.offset ax + 1 / 2)) v =
      .ok ⟨⟨⟨c.array.shape, fun i => if 0 < (v ax).array.data i then c.array.data (rollIdx c.array.shape ax 0 i)
        else c.array.data (rollIdx c.array.shape ax 1 i)⟩,
        Function.update c.array.offset ax (c.array.offset ax + 1 / 2), c.array.grid⟩, periodicBC d⟩ := by
  have hne : c.array.offset ax + 1 / 2 ≠ c.array.offset ax := by intro h; linarith
  have hne' : ¬ c.array.offset = Function.update c.array.offset ax (c.array.offset ax + 1 / 2) := by
    intro h
    have := congrFun h ax
    rw [Function.update_self] at this
    exact hne this.symm
  unfold upwind
  rw [if_neg hne', interpolationAxes_update _ _ _ hne]
  dsimp only
  unfold upwindAlong
  have hd : (v ax).array.offset ax - c.array.offset ax = 1 / 2 := by rw [ho]; ring
  dsimp only
  rw [hd, floor_half, ceil_half, if_neg (by norm_num), h.shift, Except.bind_ok, h.shift, Except.bind_ok,
    jnpWhere_ok (by exact hs) (by rfl), Except.bind_ok,
    show consistentGrid [c.array, (v ax).array] = .ok c.array.grid from uniqueOr_eq_ok.2 ⟨by simp, by simp [hg]⟩,
    Except.bind_ok, Except.pure_eq_ok]
  simp [isPositive, NArr.map]

/-- Closed form of Lax-Wendroff interpolation to the upper face. -/
theorem laxWendroff_half {c : GridVariable d K} (h : c.Periodic) (ax : Fin d) (v : Fin d → GridVariable d K) (dt : K)
    (hs : (v ax).array.shape = c.array.shape) (hg : (v ax).array.grid = c.array.grid)
    (ho : (v ax).array.offset ax = c.array.offset ax + 1 / 2) :
    laxWendroff c (Function.update c.array.offset ax (c.array.offset ax + 1 / 2)) v dt =
      .ok ⟨⟨⟨c.array.shape, fun i => if 0 < (v ax).array.data i then
          c.array.data (rollIdx c.array.shape ax 0 i) + 1 / 2 * (1 - dt / c.array.grid.step ax * (v ax).array.data i) *
            (c.array.data (rollIdx c.array.shape ax 1 i) - c.array.data (rollIdx c.array.shape ax 0 i))
        else c.array.data (rollIdx c.array.shape ax 1 i) - 1 / 2 * (1 + dt / c.array.grid.step ax * (v ax).array.data i) *
            (c.array.data (rollIdx c.array.shape ax 1 i) - c.array.data (rollIdx c.array.shape ax 0 i))⟩,
        Function.update c.array.offset ax (c.array.offset ax + 1 / 2), c.array.grid⟩, periodicBC d⟩ := by
  have hne : c.array.offset ax + 1 / 2 ≠ c.array.offset ax := by intro h; linarith
  have hne' : ¬ c.array.offset = Function.update c.array.offset ax (c.array.offset ax + 1 / 2) := by
    intro h
    have := congrFun h ax
    rw [Function.update_self] at this
    exact hne this.symm
  unfold laxWendroff
  rw [if_neg hne', interpolationAxes_update _ _ _ hne]
  dsimp only
  unfold laxWendroffAlong
  have hd : (v ax).array.offset ax - c.array.offset ax = 1 / 2 := by rw [ho]; ring
  dsimp only
  rw [hd, floor_half, ceil_half,
    show consistentGrid [c.array, (v ax).array] = .ok c.array.grid from uniqueOr_eq_ok.2 ⟨by simp, by simp [hg]⟩,
    Except.bind_ok, h.shift, Except.bind_ok, h.shift, Except.bind_ok,
    jnpWhere_ok (by exact hs) (by rfl), Except.bind_ok, Except.pure_eq_ok]
  simp [isPositive, NArr.map, NArr.map2]

/-- Closed form of limited interpolation of an arbitrary second interpolation function to the upper face. -/
theorem tvd_half {c : GridVariable d K} (h : c.Periodic) (ax : Fin d) (v : Fin d → GridVariable d K) (dt : K)
    (fn : InterpFn d K) (limiter : K → K) (hi : GridVariable d K)
    (hs : (v ax).array.shape = c.array.shape) (hg : (v ax).array.grid = c.array.grid)
    (ho : (v ax).array.offset = Function.update c.array.offset ax (c.array.offset ax + 1 / 2))
    (hfn : fn c (Function.update c.array.offset ax (c.array.offset ax + 1 / 2)) v dt = .ok hi)
    (his : hi.array.shape = c.array.shape) (hio : hi.array.offset = (v ax).array.offset)
    (hig : hi.array.grid = c.array.grid) :
    tvdInterpolation fn limiter c (Function.update c.array.offset ax (c.array.offset ax + 1 / 2)) v dt =
      .ok ⟨⟨⟨c.array.shape, fun i =>
        (if 0 < (v ax).array.data i then c.array.data (rollIdx c.array.shape ax 0 i)
          else c.array.data (rollIdx c.array.shape ax 1 i)) -
        ((if 0 < (v ax).array.data i then c.array.data (rollIdx c.array.shape ax 0 i)
          else c.array.data (rollIdx c.array.shape ax 1 i)) - hi.array.data i) *
        (if 0 < (v ax).array.data i then
          limiter (safeDiv (c.array.data i - c.array.data (rollIdx c.array.shape ax (-1) i))
            (c.array.data (rollIdx c.array.shape ax 1 i) - c.array.data i))
         else limiter (safeDiv (c.array.data (rollIdx c.array.shape ax 2 i) - c.array.data (rollIdx c.array.shape ax 1 i))
            (c.array.data (rollIdx c.array.shape ax 1 i) - c.array.data i)))⟩,
        Function.update c.array.offset ax (c.array.offset ax + 1 / 2), c.array.grid⟩, c.bc⟩ := by
  set o' := Function.update c.array.offset ax (c.array.offset ax + 1 / 2) with ho'
  have hne : c.array.offset ax + 1 / 2 ≠ c.array.offset ax := by intro h; linarith
  have hax : (v ax).array.offset ax = c.array.offset ax + 1 / 2 := by rw [ho]; simp [o']
  set R : GridVariable d K := ⟨⟨⟨c.array.shape, fun i =>
        (if 0 < (v ax).array.data i then c.array.data (rollIdx c.array.shape ax 0 i)
          else c.array.data (rollIdx c.array.shape ax 1 i)) -
        ((if 0 < (v ax).array.data i then c.array.data (rollIdx c.array.shape ax 0 i)
          else c.array.data (rollIdx c.array.shape ax 1 i)) - hi.array.data i) *
        (if 0 < (v ax).array.data i then
          limiter (safeDiv (c.array.data i - c.array.data (rollIdx c.array.shape ax (-1) i))
            (c.array.data (rollIdx c.array.shape ax 1 i) - c.array.data i))
         else limiter (safeDiv (c.array.data (rollIdx c.array.shape ax 2 i) - c.array.data (rollIdx c.array.shape ax 1 i))
            (c.array.data (rollIdx c.array.shape ax 1 i) - c.array.data i)))⟩, o', c.array.grid⟩, c.bc⟩ with hR
  have skip : ∀ (c' : GridVariable d K) (a : Fin d), o' a = c'.array.offset a →
      tvdAxis fn limiter o' v dt c' a = .ok c' := by
    intro c' a ha
    unfold tvdAxis
    rw [if_neg]
    rw [ha, Function.update_eq_self]; simp
  have body : tvdAxis fn limiter o' v dt c ax = .ok R := by
    unfold tvdAxis
    have h1 : o' ax = c.array.offset ax + 1 / 2 := by simp [o']
    have h2 : Function.update c.array.offset ax (o' ax) ≠ c.array.offset := by
      intro h
      have := congrFun h ax
      rw [Function.update_self, h1] at this
      exact hne this
    rw [if_pos h2, if_neg (by rw [h1]; simp)]
    unfold tvdAxisBody
    rw [show upwind c o' v = _ from upwind_half h ax v hs hg hax, Except.bind_ok, hfn, Except.bind_ok,
      h.shift, Except.bind_ok, h.shift, Except.bind_ok, h.shift, Except.bind_ok]
    dsimp only
    rw [jnpWhere_ok (by exact hs) (by rfl), Except.bind_ok,
      show uniqueOr .offset (fun o : Fin d → ℚ => o) [(v ax).array.offset, o', o'] = .ok o' from
        uniqueOr_eq_ok.2 ⟨by simp, by simp [ho, o']⟩, Except.bind_ok,
      show uniqueOr .grid (fun g : Grid d K => g) [(v ax).array.grid, c.array.grid, c.array.grid] = .ok c.array.grid from
        uniqueOr_eq_ok.2 ⟨by simp, by simp [hg]⟩, Except.bind_ok,
      gmap2_ok (by exact his.symm) (by exact (hio.trans ho).symm) (by exact hig.symm), Except.bind_ok,
      gmap2_ok (by rfl) (by rfl) (by rfl), Except.bind_ok, gmap2_ok (by rfl) (by rfl) (by rfl), Except.bind_ok,
      Except.pure_eq_ok, h1]
    simp [isPositive, NArr.map, NArr.map2, hR, ho']
  have skips : ∀ (l : List (Fin d)) (c' : GridVariable d K), (∀ a ∈ l, o' a = c'.array.offset a) →
      l.foldlM (tvdAxis fn limiter o' v dt) c' = .ok c' := by
    intro l
    induction l with
    | nil => intro c' _; rfl
    | cons a l ih =>
      intro c' ht
      rw [List.foldlM_cons, skip c' a (ht a (by simp)), Except.bind_ok, ih c' (fun b hb => ht b (by simp [hb]))]
  have run : ∀ (l : List (Fin d)), l.Nodup → ax ∈ l → l.foldlM (tvdAxis fn limiter o' v dt) c = .ok R := by
    intro l
    induction l with
    | nil => intro _ h; simp at h
    | cons a l ih =>
      intro hl hmem
      rw [List.foldlM_cons]
      by_cases ha : a = ax
      · subst ha
        rw [body, Except.bind_ok, skips]
        intro b _; rfl
      · rw [skip c a (by rw [ho', Function.update_of_ne ha]), Except.bind_ok]
        exact ih (List.nodup_cons.1 hl).2 (by simpa [Ne.symm ha] using hmem)
  unfold tvdInterpolation
  exact run _ (List.nodup_finRange d) (List.mem_finRange ax)

end

end JaxCfd
