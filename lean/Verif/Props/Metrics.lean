import Verif.Model.Metrics
import Verif.Lemmas.ArrayUtils
import Verif.Lemmas.Arr
import Mathlib.Algebra.Order.BigOperators.Ring.Finset
import Mathlib.Analysis.InnerProductSpace.PiL2
import Mathlib.Tactic.FinCases

/-!
# C54: error metrics
-/

namespace JaxCfd.Metric
variable {d : ℕ}

/-! ## Specification vocabulary -/

/-- The components of the two trajectories correspond to each other. -/
def Matching (xs ys : List (NArr d ℝ)) : Prop := xs ≠ [] ∧ List.Forall₂ (fun x y => x.shape = y.shape) xs ys

/-- All components have `N` frames. -/
def Frames (xs : List (NArr d ℝ)) (ax : Fin d) (N : ℕ) : Prop := ∀ x ∈ xs, x.shape ax = N

/-- The squared error over the entries whose time index satisfies `p`, summed over components. -/
noncomputable def sqErr (ax : Fin d) (p : ℤ → Prop) [DecidablePred p] (xs ys : List (NArr d ℝ)) : ℝ :=
  ((xs.zip ys).map fun xy => ∑ i ∈ (box xy.1.shape).filter (fun i => p (i ax)), (xy.1.data i - xy.2.data i) ^ 2).sum

/-- The Python axis argument `axis` denotes the axis `ax`. -/
def Denotes (axis : ℤ) (ax : Fin d) : Prop := normalizeAxis axis d = .ok ax

/-! ## Lemmas -/

theorem box_update (s : Fin d → ℕ) (ax : Fin d) (m : ℕ) (hm : m ≤ s ax) :
    box (Function.update s ax m) = (box s).filter fun i => i ax < (m : ℤ) := by
  ext i
  rw [mem_box, Finset.mem_filter, mem_box]
  constructor
  · intro h
    have hax := h ax
    rw [Function.update_self] at hax
    refine ⟨fun b => ?_, hax.2⟩
    by_cases hb : b = ax
    · subst hb; exact ⟨hax.1, by omega⟩
    · have := h b
      rwa [Function.update_of_ne hb] at this
  · rintro ⟨h, hlt⟩ b
    by_cases hb : b = ax
    · subst hb; rw [Function.update_self]; exact ⟨(h b).1, hlt⟩
    · rw [Function.update_of_ne hb]; exact h b

theorem sum_take {M : Type*} [AddCommMonoid M] (s : Fin (d + 1) → ℕ) (ax : Fin (d + 1)) (j : ℤ) (h0 : 0 ≤ j) (hj : j < s ax) (f : Idx (d + 1) → M) :
    ∑ i ∈ box (fun b => s (ax.succAbove b)), f (ax.insertNth j i) = ∑ i ∈ (box s).filter (fun i => i ax = j), f i := by
  refine Finset.sum_nbij' (fun i => ax.insertNth j i) (fun i b => i (ax.succAbove b)) ?_ ?_ ?_ ?_ ?_
  · intro i hi
    rw [mem_box] at hi
    rw [Finset.mem_filter, mem_box, Fin.insertNth_apply_same]
    refine ⟨fun b => ?_, rfl⟩
    by_cases hb : b = ax
    · subst hb; rw [Fin.insertNth_apply_same]; exact ⟨h0, hj⟩
    · obtain ⟨c, rfl⟩ := Fin.exists_succAbove_eq hb
      rw [Fin.insertNth_apply_succAbove]
      exact hi c
  · intro i hi
    rw [Finset.mem_filter, mem_box] at hi
    rw [mem_box]
    exact fun b => hi.1 _
  · intro i _
    funext b
    rw [Fin.insertNth_apply_succAbove]
  · intro i hi
    rw [Finset.mem_filter] at hi
    funext b
    by_cases hb : b = ax
    · subst hb; rw [Fin.insertNth_apply_same, hi.2]
    · obtain ⟨c, rfl⟩ := Fin.exists_succAbove_eq hb
      rw [Fin.insertNth_apply_succAbove]
  · intro i _; rfl

/-- The number of frames `slice(None, n)` keeps. -/
def headLen (N : ℕ) (n : Option ℤ) : ℕ := (PySlice.mk none n 1).len N

theorem headLen_spec (N : ℕ) (n : Option ℤ) : (headLen N n : ℤ) = (n.map (clipBound N)).getD N ∧ headLen N n ≤ N := by
  have h : (0 : ℤ) ≤ (n.map (clipBound N)).getD N ∧ (n.map (clipBound N)).getD N ≤ N := by
    cases n with
    | none => simp
    | some k => simp only [Option.map_some, Option.getD_some, clipBound]; omega
  unfold headLen PySlice.len PySlice.hi PySlice.lo
  dsimp only
  simp only [Option.map_none, Option.getD_none, sub_zero, Nat.cast_one, Int.ediv_one]
  generalize (Option.map (clipBound N) n).getD ↑N = e at *
  omega

theorem mapM_ok_map {α β : Type} (f : α → Except Err β) (g : α → β) (l : List α) (h : ∀ x ∈ l, f x = .ok (g x)) : l.mapM f = .ok (l.map g) := by
  rw [mapM_eq_ok, List.forall₂_map_right_iff]
  exact List.forall₂_same.2 h

theorem squares_sum (scale : ℝ) {xs ys : List (NArr d ℝ)} (h : List.Forall₂ (fun x y => x.shape = y.shape) xs ys) :
    sumSquares scale xs ys = .ok ((xs.zip ys).map fun xy => ∑ i ∈ box xy.1.shape, scale * (xy.1.data i - xy.2.data i) ^ 2).sum := by
  unfold sumSquares
  rw [mapM_ok_map _ (fun xy => ∑ i ∈ box xy.1.shape, scale * (xy.1.data i - xy.2.data i) ^ 2)]
  · rfl
  · intro xy hxy
    unfold squares
    rw [if_pos]
    induction h with
    | nil => cases hxy
    | cons h1 _ ih =>
      rw [List.zip_cons_cons, List.mem_cons] at hxy
      rcases hxy with rfl | hxy
      · exact h1
      · exact ih hxy

theorem sum_map_mul (c : ℝ) {α : Type} (l : List α) (f : α → ℝ) : (l.map fun x => c * f x).sum = c * (l.map f).sum := by
  induction l with
  | nil => simp
  | cons x l ih => rw [List.map_cons, List.sum_cons, ih, List.map_cons, List.sum_cons, mul_add]

/-! ## L2 losses -/

/-- **C54.** `l2_loss_cumulative(trajectory, target, n)` is `scale` times the squared error over all components and the frames before `n`
(all frames for `n = None`; a negative `n` leaves out the last `-n` frames). -/
theorem C54_l2_cumulative (xs ys : List (NArr d ℝ)) (hm : Matching xs ys) (axis : ℤ) (ax : Fin d) (hax : Denotes axis ax) (N : ℕ)
    (hN : Frames xs ax N) (n : Option ℤ) (scale : ℝ) :
    l2LossCumulative xs ys n scale axis =
      .ok (scale * sqErr ax (fun t => t < match n with | none => (N : ℤ) | some k => if k < 0 then N + k else k) xs ys) := by
  obtain ⟨hne, hsh⟩ := hm
  have hne' : ys ≠ [] := fun h => hne (by
    subst h
    exact List.forall₂_nil_right_iff.1 hsh)
  have hhead : ∀ zs : List (NArr d ℝ), zs ≠ [] → headAlongAxis zs axis n = .ok (zs.map fun x => sliceAx x ax ⟨none, n, 1⟩) := fun zs hz => by
    unfold headAlongAxis
    rw [if_neg hz]
    exact mapM_ok_map _ _ _ fun x _ => by rw [show normalizeAxis axis d = .ok ax from hax]; rfl
  unfold l2LossCumulative
  rw [hhead xs hne, Except.bind_ok, hhead ys hne', Except.bind_ok, squares_sum]
  · unfold sqErr
    rw [← sum_map_mul, List.zip_map, List.map_map]
    congr 2
    refine List.map_congr_left fun xy hxy => ?_
    have hx : xy.1.shape ax = N := hN _ (List.of_mem_zip hxy).1
    obtain ⟨hl, hle⟩ := headLen_spec N n
    show ∑ i ∈ box (Function.update xy.1.shape ax (headLen (xy.1.shape ax) n)),
      scale * (xy.1.data (Function.update i ax (0 + i ax * ((1 : ℕ) : ℤ))) - xy.2.data (Function.update i ax (0 + i ax * ((1 : ℕ) : ℤ)))) ^ 2 = _
    rw [hx, box_update _ _ _ (by rw [hx]; exact hle), Finset.mul_sum]
    refine Finset.sum_congr ?_ fun i _ => by simp
    refine Finset.filter_congr fun i hi => ?_
    have hi' := mem_box.1 hi ax
    rw [hx] at hi'
    rw [hl]
    cases n with
    | none => simp
    | some k =>
      simp only [Option.map_some, Option.getD_some, clipBound]
      split_ifs <;> omega
  · rw [List.forall₂_map_left_iff, List.forall₂_map_right_iff]
    refine hsh.imp fun x y h => ?_
    show Function.update x.shape ax _ = Function.update y.shape ax _
    rw [h]

/-- **C54.** `l2_loss_single_step(trajectory, target, n)` is `scale` times the squared error of frame `n` (counted from the end if
negative), for every `n` in range. -/
theorem C54_l2_single_step (xs ys : List (NArr (d + 1) ℝ)) (hm : Matching xs ys) (axis : ℤ) (ax : Fin (d + 1)) (hax : Denotes axis ax) (N : ℕ)
    (hN : Frames xs ax N) (n : ℤ) (hn : -(N : ℤ) ≤ n ∧ n < N) (scale : ℝ) :
    l2LossSingleStep xs ys n scale axis = .ok (scale * sqErr ax (fun t => t = if n < 0 then N + n else n) xs ys) := by
  obtain ⟨hne, hsh⟩ := hm
  have hne' : ys ≠ [] := fun h => hne (by
    subst h
    exact List.forall₂_nil_right_iff.1 hsh)
  have hN' : Frames ys ax N := by
    intro y hy
    clear hne hne'
    induction hsh with
    | nil => cases hy
    | @cons x y' xs ys h1 _ ih =>
      rcases List.mem_cons.1 hy with rfl | hy
      · rw [← h1]; exact hN x List.mem_cons_self
      · exact ih (fun z hz => hN z (List.mem_cons_of_mem _ hz)) hy
  have htake : ∀ zs : List (NArr (d + 1) ℝ), zs ≠ [] → Frames zs ax N → takeAlongAxis zs axis n = .ok (zs.map fun x =>
      (⟨fun b => x.shape (ax.succAbove b), fun i => x.data (ax.insertNth (if n < 0 then n + N else n) i)⟩ : NArr d ℝ)) := fun zs hz hf => by
    unfold takeAlongAxis
    rw [if_neg hz]
    refine mapM_ok_map _ _ _ fun x hx => ?_
    rw [show normalizeAxis axis (d + 1) = .ok ax from hax, Except.bind_ok]
    unfold takeAx pyIndex
    rw [hf x hx, if_pos hn]
    rfl
  unfold l2LossSingleStep
  rw [htake xs hne hN, Except.bind_ok, htake ys hne' hN', Except.bind_ok, squares_sum]
  · unfold sqErr
    rw [← sum_map_mul, List.zip_map, List.map_map]
    congr 2
    refine List.map_congr_left fun xy hxy => ?_
    have hx : xy.1.shape ax = N := hN _ (List.of_mem_zip hxy).1
    have := sum_take xy.1.shape ax (if n < 0 then n + N else n) (by split_ifs <;> omega) (by rw [hx]; split_ifs <;> omega)
      (fun i => scale * (xy.1.data i - xy.2.data i) ^ 2)
    refine this.trans ?_
    rw [Finset.mul_sum]
    refine Finset.sum_congr (Finset.filter_congr fun i _ => ?_) fun i _ => rfl
    split_ifs <;> omega
  · rw [List.forall₂_map_left_iff, List.forall₂_map_right_iff]
    exact hsh.imp fun x y h => by dsimp only; rw [h]

theorem list_sum_eq_zero {l : List ℝ} (h : ∀ x ∈ l, 0 ≤ x) : l.sum = 0 ↔ ∀ x ∈ l, x = 0 := by
  induction l with
  | nil => simp
  | cons a l ih =>
    have h1 := h a List.mem_cons_self
    have h2 : 0 ≤ l.sum := List.sum_nonneg fun x hx => h x (List.mem_cons_of_mem _ hx)
    rw [List.sum_cons, List.forall_mem_cons, ← ih fun x hx => h x (List.mem_cons_of_mem _ hx)]
    constructor
    · intro e; constructor <;> linarith
    · rintro ⟨e1, e2⟩; rw [e1, e2, add_zero]

theorem sqErr_nonneg (ax : Fin d) (p : ℤ → Prop) [DecidablePred p] (xs ys : List (NArr d ℝ)) : 0 ≤ sqErr ax p xs ys :=
  List.sum_nonneg fun x hx => by
    obtain ⟨xy, -, rfl⟩ := List.mem_map.1 hx
    exact Finset.sum_nonneg fun i _ => sq_nonneg _

theorem sqErr_or (ax : Fin d) (p q r : ℤ → Prop) [DecidablePred p] [DecidablePred q] [DecidablePred r] (h : ∀ t, r t ↔ p t ∨ q t)
    (hd : ∀ t, ¬ (p t ∧ q t)) (xs ys : List (NArr d ℝ)) : sqErr ax r xs ys = sqErr ax p xs ys + sqErr ax q xs ys := by
  unfold sqErr
  rw [← List.sum_map_add]
  congr 1
  refine List.map_congr_left fun xy _ => ?_
  rw [← Finset.sum_union]
  · refine Finset.sum_congr ?_ fun _ _ => rfl
    ext i
    simp only [Finset.mem_union, Finset.mem_filter, h]
    tauto
  · rw [Finset.disjoint_filter]
    exact fun i _ h1 h2 => hd _ ⟨h1, h2⟩

/-- **C54.** The cumulative loss is the running sum of the losses of the single steps. -/
theorem C54_cumulative_is_running_sum (xs ys : List (NArr (d + 1) ℝ)) (hm : Matching xs ys) (axis : ℤ) (ax : Fin (d + 1))
    (hax : Denotes axis ax) (N : ℕ) (hN : Frames xs ax N) (scale : ℝ) :
    l2LossCumulative xs ys (some 0) scale axis = .ok 0 ∧
    ∀ n : ℕ, n < N → ∃ c s, l2LossCumulative xs ys (some n) scale axis = .ok c ∧ l2LossSingleStep xs ys n scale axis = .ok s ∧
      l2LossCumulative xs ys (some (n + 1)) scale axis = .ok (c + s) := by
  constructor
  · rw [C54_l2_cumulative xs ys hm axis ax hax N hN]
    unfold sqErr
    rw [List.sum_eq_zero, mul_zero]
    intro x hx
    obtain ⟨xy, -, rfl⟩ := List.mem_map.1 hx
    refine Finset.sum_eq_zero fun i hi => ?_
    rw [Finset.mem_filter, mem_box] at hi
    have := (hi.1 ax).1
    have := hi.2
    simp only [lt_self_iff_false, if_false] at this
    omega
  · intro n hn
    refine ⟨_, _, C54_l2_cumulative xs ys hm axis ax hax N hN _ _, C54_l2_single_step xs ys hm axis ax hax N hN n (by omega) _, ?_⟩
    rw [C54_l2_cumulative xs ys hm axis ax hax N hN, ← mul_add]
    congr 2
    refine sqErr_or ax _ _ _ (fun t => ?_) (fun t => ?_) xs ys
    · dsimp only
      rw [if_neg (by omega), if_neg (by omega)]
      omega
    · dsimp only
      rw [if_neg (by omega)]
      omega

/-- **C54.** With a positive scale the cumulative loss over the first `n` frames is nonnegative, does not depend on which trajectory is
called the target, and vanishes exactly if the trajectories agree on these frames. -/
theorem C54_l2_separates (xs ys : List (NArr d ℝ)) (hm : Matching xs ys) (axis : ℤ) (ax : Fin d) (hax : Denotes axis ax) (N : ℕ)
    (hN : Frames xs ax N) (n : ℕ) (scale : ℝ) (hs : 0 < scale) :
    ∃ l, l2LossCumulative xs ys (some n) scale axis = .ok l ∧ l2LossCumulative ys xs (some n) scale axis = .ok l ∧ 0 ≤ l ∧
      (l = 0 ↔ ∀ xy ∈ xs.zip ys, ∀ i : Idx d, InR xy.1.shape i → i ax < n → xy.1.data i = xy.2.data i) := by
  have hm' : Matching ys xs := ⟨fun h => hm.1 (by
    have := hm.2
    rw [h] at this
    exact List.forall₂_nil_right_iff.1 this), (List.Forall₂.flip hm.2).imp fun x y h => h.symm⟩
  have hN' : Frames ys ax N := by
    intro y hy
    have h2 := hm.2
    clear hm hm'
    induction h2 with
    | nil => cases hy
    | @cons x y' xs ys h1 _ ih =>
      rcases List.mem_cons.1 hy with rfl | hy
      · rw [← h1]; exact hN x List.mem_cons_self
      · exact ih (fun z hz => hN z (List.mem_cons_of_mem _ hz)) hy
  have hsym : ∀ (p : ℤ → Prop) [DecidablePred p], sqErr ax p ys xs = sqErr ax p xs ys := by
    intro p _
    unfold sqErr
    have h2 := hm.2
    clear hm hm' hN hN'
    induction h2 with
    | nil => rfl
    | @cons x y xs ys h1 _ ih =>
      rw [List.zip_cons_cons, List.zip_cons_cons, List.map_cons, List.map_cons, List.sum_cons, List.sum_cons, ih]
      congr 1
      dsimp only
      rw [h1]
      exact Finset.sum_congr rfl fun i _ => by ring
  refine ⟨_, C54_l2_cumulative xs ys hm axis ax hax N hN _ _, ?_, mul_nonneg hs.le (sqErr_nonneg _ _ _ _), ?_⟩
  · rw [C54_l2_cumulative ys xs hm' axis ax hax N hN', hsym]
  · rw [mul_eq_zero, or_iff_right hs.ne']
    unfold sqErr
    rw [list_sum_eq_zero (by
      intro x hx
      obtain ⟨xy, -, rfl⟩ := List.mem_map.1 hx
      exact Finset.sum_nonneg fun i _ => sq_nonneg _)]
    simp only [List.forall_mem_map]
    refine forall₂_congr fun xy _ => ?_
    rw [Finset.sum_eq_zero_iff_of_nonneg fun i _ => sq_nonneg _]
    simp only [Finset.mem_filter, mem_box, and_imp, pow_eq_zero_iff two_ne_zero, sub_eq_zero]
    refine forall_congr' fun i => forall_congr' fun _ => ?_
    rw [if_neg (by omega)]

/-- **C54** (a limitation). Components without a partner are ignored silently: appending components to the longer trajectory does not
change the loss. -/
theorem C54_extra_components_ignored (xs ys zs : List (NArr d ℝ)) (hm : Matching xs ys) (axis : ℤ) (ax : Fin d) (hax : Denotes axis ax)
    (N : ℕ) (hN : Frames xs ax N) (n : Option ℤ) (scale : ℝ) :
    l2LossCumulative (xs ++ zs) ys n scale axis = l2LossCumulative xs ys n scale axis := by
  have hhead : ∀ ws : List (NArr d ℝ), ws ≠ [] → headAlongAxis ws axis n = .ok (ws.map fun x => sliceAx x ax ⟨none, n, 1⟩) := fun ws hw => by
    unfold headAlongAxis
    rw [if_neg hw]
    exact mapM_ok_map _ _ _ fun x _ => by rw [show normalizeAxis axis d = .ok ax from hax]; rfl
  have hne' : ys ≠ [] := fun h => hm.1 (by
    have := hm.2
    rw [h] at this
    exact List.forall₂_nil_right_iff.1 this)
  unfold l2LossCumulative
  rw [hhead _ (by simp [hm.1]), Except.bind_ok, hhead ys hne', Except.bind_ok, hhead xs hm.1, Except.bind_ok, Except.bind_ok]
  unfold sumSquares
  rw [List.map_append]
  have : ∀ (as bs cs : List (NArr d ℝ)), bs.length = as.length → (as ++ cs).zip bs = as.zip bs := by
    intro as
    induction as with
    | nil => intro bs cs h; rw [List.length_eq_zero_iff.1 h]; simp
    | cons a as ih =>
      intro bs cs h
      cases bs with
      | nil => simp at h
      | cons b bs => rw [List.cons_append, List.zip_cons_cons, List.zip_cons_cons, ih bs cs (by simpa using h)]
  rw [this _ _ _ (by rw [List.length_map, List.length_map, hm.2.length_eq])]

/-! ## Correlation -/

/-- The cosine of the angle between two lists of values over a finite index set. -/
noncomputable def cosine {ι : Type} (c : Finset ι) (x y : ι → ℝ) : ℝ :=
  (∑ j ∈ c, x j * y j) / (Real.sqrt (∑ j ∈ c, x j ^ 2) * Real.sqrt (∑ j ∈ c, y j ^ 2))

/-- The entries that differ from entry `i` only along the axes `S`. -/
def group (S : Finset (Fin d)) (s : Fin d → ℕ) (i : Idx d) : Finset (Idx d) := (box s).filter fun j => ∀ b, b ∉ S → j b = i b

theorem group_eq {S : Finset (Fin d)} {s : Fin d → ℕ} {i j : Idx d} (h : j ∈ group S s i) : group S s j = group S s i := by
  unfold group at *
  rw [Finset.mem_filter] at h
  refine Finset.filter_congr fun k _ => forall₂_congr fun b hb => ?_
  rw [h.2 b hb]

theorem cosine_abs_le {ι : Type} (c : Finset ι) (x y : ι → ℝ) : |cosine c x y| ≤ 1 := by
  unfold cosine
  rw [abs_div, abs_of_nonneg (mul_nonneg (Real.sqrt_nonneg _) (Real.sqrt_nonneg _))]
  refine div_le_one_of_le₀ ?_ (mul_nonneg (Real.sqrt_nonneg _) (Real.sqrt_nonneg _))
  rw [← Real.sqrt_mul (Finset.sum_nonneg fun _ _ => sq_nonneg _)]
  refine Real.le_sqrt_of_sq_le ?_
  rw [sq_abs]
  exact Finset.sum_mul_sq_le_sq_mul_sq c x y

theorem correlation_group (S : Finset (Fin d)) (s : Fin d → ℕ) (x y : Idx d → ℝ) (i : Idx d) :
    sumAxes S s (fun j => (normalize ⟨s, x⟩ S).data j * (normalize ⟨s, y⟩ S).data j) i = cosine (group S s i) x y := by
  unfold sumAxes cosine normalize
  show ∑ j ∈ group S s i, _ = _
  rw [Finset.sum_div]
  refine Finset.sum_congr rfl fun j hj => ?_
  dsimp only
  have e : ∀ z : Idx d → ℝ, (sumAxes S s (fun k => z k ^ 2) j) ^ (1 / 2 : ℝ) = Real.sqrt (∑ k ∈ group S s i, z k ^ 2) := by
    intro z
    rw [Real.sqrt_eq_rpow, ← group_eq hj]
    rfl
  rw [e x, e y]
  ring

/-- The arrays frame `n` consists of, stacked. -/
def frame (ax : Fin (d + 1)) (n : ℤ) (x : NArr (d + 1) ℝ) (xs : List (NArr (d + 1) ℝ)) : NArr (d + 1) ℝ :=
  ⟨Fin.cons (xs.length + 1) fun b => x.shape (ax.succAbove b), fun i => (((x :: xs)[(i 0).toNat]?).getD x).data (ax.insertNth n fun b => i b.succ)⟩

theorem stacked {ax : Fin (d + 1)} {n : ℤ} {x : NArr (d + 1) ℝ} {xs : List (NArr (d + 1) ℝ)} (hs : ∀ z ∈ xs, z.shape = x.shape)
    (hn : 0 ≤ n ∧ n < x.shape ax) {timeAxis : ℕ} (ht : timeAxis = (ax : ℕ)) :
    (takeAlongAxis (x :: xs) timeAxis n).bind stack = .ok (frame ax n x xs) := by
  have hax : normalizeAxis (timeAxis : ℤ) (d + 1) = .ok ax := by
    have := ax.2
    subst ht
    unfold normalizeAxis
    rw [dif_pos (by constructor <;> omega)]
    have hz : ¬ ((ax : ℕ) : ℤ) < 0 := by omega
    refine congrArg Except.ok (Fin.ext ?_)
    simp [hz]
  have htake : takeAlongAxis (x :: xs) timeAxis n = .ok ((x :: xs).map fun z =>
      (⟨fun b => z.shape (ax.succAbove b), fun i => z.data (ax.insertNth n i)⟩ : NArr d ℝ)) := by
    unfold takeAlongAxis
    rw [if_neg (by simp)]
    refine mapM_ok_map _ _ _ fun z hz => ?_
    rw [hax, Except.bind_ok]
    unfold takeAx pyIndex
    have hzs : z.shape = x.shape := by
      rcases List.mem_cons.1 hz with rfl | hz
      · rfl
      · exact hs z hz
    rw [hzs, if_pos (by omega), Except.bind_ok, if_neg (by omega)]
    rfl
  have hb : ∀ l : List (NArr d ℝ), (Except.ok l : Except Err _).bind stack = stack l := fun _ => rfl
  rw [htake, hb, List.map_cons]
  unfold stack
  dsimp only
  rw [if_pos (by
    intro y hy
    obtain ⟨z, hz, rfl⟩ := List.mem_map.1 hy
    dsimp only
    rw [hs z hz])]
  unfold frame
  rw [List.length_map]
  refine congrArg Except.ok (congrArg (NArr.mk _) (funext fun i => ?_))
  rw [← List.map_cons (f := fun z : NArr (d + 1) ℝ =>
    (⟨fun b => z.shape (ax.succAbove b), fun i => z.data (ax.insertNth n i)⟩ : NArr d ℝ)), List.getElem?_map]
  cases (x :: xs)[(i 0).toNat]? <;> rfl

/-- **C54.** What `correlation_single_step` computes: the mean, over the groups of entries of the stacked frames that differ only along the
axes `stateAxes`, of the cosine between trajectory and target.  (Which groups these are is the subject of
`C54_correlation_axes_defect`.) -/
theorem C54_correlation (x y : NArr (d + 1) ℝ) (xs ys : List (NArr (d + 1) ℝ)) (hx : ∀ z ∈ xs, z.shape = x.shape)
    (hy : ∀ z ∈ ys, z.shape = y.shape) (hxy : x.shape = y.shape) (hlen : xs.length = ys.length) (ax : Fin (d + 1)) (n : ℤ)
    (hn : 0 ≤ n ∧ n < x.shape ax) (batchAxis : ℕ) :
    correlationSingleStep (x :: xs) (y :: ys) n ax batchAxis =
      .ok ((∑ i ∈ box (keptShape (stateAxes (d + 1) ax batchAxis) (frame ax n x xs).shape),
        cosine (group (stateAxes (d + 1) ax batchAxis) (frame ax n x xs).shape i) (frame ax n x xs).data (frame ax n y ys).data) /
        (box (keptShape (stateAxes (d + 1) ax batchAxis) (frame ax n x xs).shape)).card) := by
  have h1 := stacked hx hn (timeAxis := ax) rfl
  have h2 := stacked hy (by rw [← hxy]; exact hn) (timeAxis := ax) rfl
  unfold correlationSingleStep
  obtain ⟨X, hX, hX'⟩ := Except.bind_eq_ok.1 h1
  obtain ⟨Y, hY, hY'⟩ := Except.bind_eq_ok.1 h2
  rw [hX, Except.bind_ok, hY, Except.bind_ok, hX', Except.bind_ok, hY', Except.bind_ok]
  have hsh : (frame ax n x xs).shape = (frame ax n y ys).shape := by
    unfold frame
    dsimp only
    rw [hlen, hxy]
  dsimp only
  rw [if_pos hsh]
  congr 2
  refine Finset.sum_congr rfl fun i _ => ?_
  have := correlation_group (stateAxes (d + 1) ax batchAxis) (frame ax n x xs).shape (frame ax n x xs).data (frame ax n y ys).data i
  rw [← this]
  have e : frame ax n y ys = ⟨(frame ax n x xs).shape, (frame ax n y ys).data⟩ := by rw [hsh]
  rw [e]

/-- **C54.** The correlation lies between -1 and 1. -/
theorem C54_correlation_bounded (x y : NArr (d + 1) ℝ) (xs ys : List (NArr (d + 1) ℝ)) (hx : ∀ z ∈ xs, z.shape = x.shape)
    (hy : ∀ z ∈ ys, z.shape = y.shape) (hxy : x.shape = y.shape) (hlen : xs.length = ys.length) (ax : Fin (d + 1)) (n : ℤ)
    (hn : 0 ≤ n ∧ n < x.shape ax) (batchAxis : ℕ) :
    ∃ r, correlationSingleStep (x :: xs) (y :: ys) n ax batchAxis = .ok r ∧ |r| ≤ 1 := by
  refine ⟨_, C54_correlation x y xs ys hx hy hxy hlen ax n hn batchAxis, ?_⟩
  rw [abs_div, abs_of_nonneg (Nat.cast_nonneg (α := ℝ) _)]
  refine div_le_one_of_le₀ ?_ (Nat.cast_nonneg _)
  refine (Finset.abs_sum_le_sum_abs _ _).trans ?_
  refine (Finset.sum_le_sum fun i _ => cosine_abs_le _ _ _).trans ?_
  simp

/-- **C54.** Multiplying the trajectory by a positive factor does not change the correlation; with the factor -1 its sign changes. -/
theorem C54_correlation_scale (x y : NArr (d + 1) ℝ) (xs ys : List (NArr (d + 1) ℝ)) (hx : ∀ z ∈ xs, z.shape = x.shape)
    (hy : ∀ z ∈ ys, z.shape = y.shape) (hxy : x.shape = y.shape) (hlen : xs.length = ys.length) (ax : Fin (d + 1)) (n : ℤ)
    (hn : 0 ≤ n ∧ n < x.shape ax) (batchAxis : ℕ) (c : ℝ) (hc : c ≠ 0) :
    ∃ r, correlationSingleStep (x :: xs) (y :: ys) n ax batchAxis = .ok r ∧
      correlationSingleStep ((x :: xs).map fun z => ⟨z.shape, fun i => c * z.data i⟩) (y :: ys) n ax batchAxis = .ok (c / |c| * r) := by
  refine ⟨_, C54_correlation x y xs ys hx hy hxy hlen ax n hn batchAxis, ?_⟩
  rw [List.map_cons, C54_correlation (⟨x.shape, fun i => c * x.data i⟩ : NArr (d + 1) ℝ) y (xs.map fun z => ⟨z.shape, fun i => c * z.data i⟩) ys
    (by
      intro z hz
      obtain ⟨w, hw, rfl⟩ := List.mem_map.1 hz
      exact hx w hw) hy hxy (by rw [List.length_map, hlen]) ax n hn batchAxis]
  have hsh : (frame ax n (⟨x.shape, fun i => c * x.data i⟩ : NArr (d + 1) ℝ) (xs.map fun z => ⟨z.shape, fun i => c * z.data i⟩)).shape =
      (frame ax n x xs).shape := by
    unfold frame
    dsimp only
    rw [List.length_map]
  have hdata : ∀ i, (frame ax n (⟨x.shape, fun i => c * x.data i⟩ : NArr (d + 1) ℝ) (xs.map fun z => ⟨z.shape, fun i => c * z.data i⟩)).data i =
      c * (frame ax n x xs).data i := by
    intro i
    unfold frame
    dsimp only
    rw [← List.map_cons (f := fun z : NArr (d + 1) ℝ => (⟨z.shape, fun i => c * z.data i⟩ : NArr (d + 1) ℝ)), List.getElem?_map]
    cases (x :: xs)[(i 0).toNat]? <;> rfl
  rw [hsh, ← mul_div_assoc, Finset.mul_sum]
  congr 2
  refine Finset.sum_congr rfl fun i _ => ?_
  unfold cosine
  have e1 : ∀ C : Finset (Idx (d + 1)), ∑ j ∈ C, (c * (frame ax n x xs).data j) ^ 2 = c ^ 2 * ∑ j ∈ C, (frame ax n x xs).data j ^ 2 := fun C => by
    rw [Finset.mul_sum]
    exact Finset.sum_congr rfl fun j _ => by ring
  have e2 : ∀ C : Finset (Idx (d + 1)), ∑ j ∈ C, c * (frame ax n x xs).data j * (frame ax n y ys).data j =
      c * ∑ j ∈ C, (frame ax n x xs).data j * (frame ax n y ys).data j := fun C => by
    rw [Finset.mul_sum]
    exact Finset.sum_congr rfl fun j _ => by ring
  simp only [hdata]
  rw [e1, e2, Real.sqrt_mul (sq_nonneg c), Real.sqrt_sq_eq_abs]
  rw [mul_assoc, mul_div_mul_comm]

/-- **C54.** The correlation of a frame without vanishing groups with itself is 1. -/
theorem C54_correlation_self (x : NArr (d + 1) ℝ) (xs : List (NArr (d + 1) ℝ)) (hx : ∀ z ∈ xs, z.shape = x.shape) (hpos : ∀ b, 0 < x.shape b)
    (ax : Fin (d + 1)) (n : ℤ) (hn : 0 ≤ n ∧ n < x.shape ax) (batchAxis : ℕ)
    (hne : ∀ z ∈ x :: xs, ∀ i : Idx (d + 1), InR z.shape i → z.data i ≠ 0) :
    correlationSingleStep (x :: xs) (x :: xs) n ax batchAxis = .ok 1 := by
  rw [C54_correlation x x xs xs hx hx rfl rfl ax n hn batchAxis]
  congr 1
  have hcard : (0 : ℝ) < (box (keptShape (stateAxes (d + 1) ax batchAxis) (frame ax n x xs).shape)).card := by
    have : (fun _ => 0 : Idx (d + 1)) ∈ box (keptShape (stateAxes (d + 1) ax batchAxis) (frame ax n x xs).shape) := by
      rw [mem_box]
      intro b
      refine ⟨le_rfl, ?_⟩
      unfold keptShape
      split_ifs
      · norm_num
      · unfold frame
        dsimp only
        refine Fin.cases ?_ (fun b => ?_) b
        · rw [Fin.cons_zero]; positivity
        · rw [Fin.cons_succ]; exact_mod_cast hpos _
    exact_mod_cast Finset.card_pos.2 ⟨_, this⟩
  rw [Finset.sum_congr rfl (g := fun _ => (1 : ℝ)), Finset.sum_const, nsmul_eq_mul, mul_one, div_self hcard.ne']
  intro i hi
  unfold cosine
  have h2 : ∑ j ∈ group (stateAxes (d + 1) ax batchAxis) (frame ax n x xs).shape i, (frame ax n x xs).data j * (frame ax n x xs).data j =
      ∑ j ∈ group (stateAxes (d + 1) ax batchAxis) (frame ax n x xs).shape i, (frame ax n x xs).data j ^ 2 :=
    Finset.sum_congr rfl fun j _ => by ring
  have hin : ∀ b, keptShape (stateAxes (d + 1) ax batchAxis) (frame ax n x xs).shape b ≤ (frame ax n x xs).shape b := by
    intro b
    unfold keptShape
    split_ifs
    · unfold frame
      dsimp only
      refine Fin.cases ?_ (fun b => ?_) b
      · rw [Fin.cons_zero]; omega
      · rw [Fin.cons_succ]; exact hpos _
    · exact le_rfl
  have hmem : i ∈ group (stateAxes (d + 1) ax batchAxis) (frame ax n x xs).shape i := by
    unfold group
    rw [Finset.mem_filter, mem_box]
    refine ⟨fun b => ?_, fun _ _ => rfl⟩
    have := mem_box.1 hi b
    have := hin b
    omega
  have hval : (frame ax n x xs).data i ≠ 0 := by
    have hi' : InR (frame ax n x xs).shape i := (mem_box.1 (Finset.mem_filter.1 hmem).1)
    have h0 : 0 ≤ i 0 ∧ i 0 < ((xs.length + 1 : ℕ) : ℤ) := hi' 0
    have hlt : (i 0).toNat < (x :: xs).length := by rw [List.length_cons]; omega
    unfold frame
    dsimp only
    rw [List.getElem?_eq_getElem hlt, Option.getD_some]
    refine hne _ (List.getElem_mem hlt) _ fun b => ?_
    have hsz : ((x :: xs)[(i 0).toNat]).shape = x.shape := by
      rcases List.mem_cons.1 (List.getElem_mem hlt) with h | h
      · rw [h]
      · exact hx _ h
    rw [hsz]
    by_cases hb : b = ax
    · subst hb; rw [Fin.insertNth_apply_same]; exact hn
    · obtain ⟨c, rfl⟩ := Fin.exists_succAbove_eq hb
      rw [Fin.insertNth_apply_succAbove]
      exact (hi' c.succ : 0 ≤ i c.succ ∧ i c.succ < (x.shape (ax.succAbove c) : ℤ))
  have hp : 0 < ∑ j ∈ group (stateAxes (d + 1) ax batchAxis) (frame ax n x xs).shape i, (frame ax n x xs).data j ^ 2 :=
    Finset.sum_pos' (fun _ _ => sq_nonneg _) ⟨i, hmem, by positivity⟩
  rw [h2, Real.mul_self_sqrt hp.le, div_self hp.ne']

/-- **C54** (a defect). With the default axes (time first, batch second) the correlation is not taken over the state: the axes
normalised over are those at the positions `1, .., d - 1` of the stacked array, which include the batch axis (position 1) and leave out the
components (position 0) and the last space axis (position `d`). -/
theorem C54_correlation_axes_defect (b : Fin (d + 1)) : b ∈ stateAxes (d + 1) 0 1 ↔ 1 ≤ (b : ℕ) ∧ (b : ℕ) < d := by
  unfold stateAxes
  rw [Finset.mem_filter]
  constructor
  · rintro ⟨-, a, h1, h2, h3, h4⟩
    rw [if_neg (by omega)] at h4
    omega
  · rintro ⟨h1, h2⟩
    exact ⟨Finset.mem_univ _, b + 1, by omega, by omega, by omega, by rw [if_neg (by omega)]; rfl⟩

/-- A trajectory with one component, one frame and one space point; `b` lists the values of the samples. -/
def samples (b : List ℝ) : NArr 3 ℝ := ⟨![1, b.length, 1], fun i => b.getD (i 1).toNat 0⟩

/-- **C54** (a defect). Two samples, each perfectly correlated with its target (correlation 1 when evaluated alone), have a correlation
below 1 when they are evaluated as one batch: the samples are mixed. -/
theorem C54_correlation_batch_defect :
    correlationSingleStep [samples [2]] [samples [1]] 0 = .ok 1 ∧ correlationSingleStep [samples [1]] [samples [1]] 0 = .ok 1 ∧
    ∃ r, correlationSingleStep [samples [2, 1]] [samples [1, 1]] 0 = .ok r ∧ r < 1 := by
  have hself : correlationSingleStep [samples [1]] [samples [1]] 0 = .ok 1 :=
    C54_correlation_self (samples [1]) [] (by simp) (fun b => by fin_cases b <;> simp [samples]) 0 0 (by simp [samples]) 1
      (by
        intro z hz i hi
        rw [List.mem_singleton.1 hz] at hi ⊢
        have h1 : 0 ≤ i 1 ∧ i 1 < ((1 : ℕ) : ℤ) := hi 1
        have : i 1 = 0 := by omega
        simp [samples, this])
  refine ⟨?_, hself, ?_⟩
  · obtain ⟨r, h1, h2⟩ := C54_correlation_scale (samples [1]) (samples [1]) [] [] (by simp) (by simp) rfl rfl 0 0 (by simp [samples]) 1 2 two_ne_zero
    have h1 : correlationSingleStep [samples [1]] [samples [1]] 0 = .ok r := h1
    rw [hself] at h1
    injection h1 with h1
    subst h1
    have e : (⟨(samples [1]).shape, fun i => 2 * (samples [1]).data i⟩ : NArr 3 ℝ) = samples [2] := by
      unfold samples
      congr 1
      funext i
      show 2 * [(1 : ℝ)].getD (i 1).toNat 0 = [(2 : ℝ)].getD (i 1).toNat 0
      generalize (i 1).toNat = k
      cases k <;> simp
    rw [List.map_cons, List.map_nil, e] at h2
    have h3 : (2 : ℝ) / |2| * 1 = 1 := by norm_num
    rw [h3] at h2
    exact h2
  · have hS : stateAxes (2 + 1) ((0 : Fin 3) : ℕ) 1 = {1} := by
      ext b
      have := C54_correlation_axes_defect (d := 2) b
      rw [Finset.mem_singleton]
      refine this.trans ?_
      fin_cases b <;> simp
    have h := C54_correlation (samples [2, 1]) (samples [1, 1]) [] [] (by simp) (by simp) rfl rfl 0 0 (by simp [samples]) 1
    rw [hS] at h
    have hfs : (frame 0 0 (samples [2, 1]) []).shape = ![1, 2, 1] := by
      funext b
      fin_cases b <;> rfl
    have hbox : box (keptShape {(1 : Fin 3)} (frame 0 0 (samples [2, 1]) []).shape) = {fun _ => 0} := by
      ext j
      rw [hfs, mem_box, Finset.mem_singleton]
      constructor
      · intro hj
        have h0 : 0 ≤ j 0 ∧ j 0 < ((1 : ℕ) : ℤ) := hj 0
        have h1 : 0 ≤ j 1 ∧ j 1 < ((1 : ℕ) : ℤ) := hj 1
        have h2 : 0 ≤ j 2 ∧ j 2 < ((1 : ℕ) : ℤ) := hj 2
        funext b
        fin_cases b
        · show j 0 = 0; omega
        · show j 1 = 0; omega
        · show j 2 = 0; omega
      · rintro rfl b
        fin_cases b <;> simp [keptShape]
    have hgroup : group {(1 : Fin 3)} (frame 0 0 (samples [2, 1]) []).shape (fun _ => 0) = {(fun _ => 0), ![0, 1, 0]} := by
      ext j
      unfold group
      rw [hfs, Finset.mem_filter, mem_box, Finset.mem_insert, Finset.mem_singleton]
      constructor
      · rintro ⟨hj, h⟩
        have h0 : j 0 = 0 := h 0 (by decide)
        have h1 : 0 ≤ j 1 ∧ j 1 < ((2 : ℕ) : ℤ) := hj 1
        have h2 : j 2 = 0 := h 2 (by decide)
        have h3 : j 1 = 0 ∨ j 1 = 1 := by omega
        rcases h3 with h3 | h3
        · left; funext b; fin_cases b <;> assumption
        · right; funext b; fin_cases b <;> assumption
      · rintro (rfl | rfl)
        · exact ⟨fun b => by fin_cases b <;> simp, fun _ _ => rfl⟩
        · exact ⟨fun b => by fin_cases b <;> simp, fun b hb => by fin_cases b <;> simp_all⟩
    have hne : (fun _ => 0 : Idx 3) ≠ ![0, 1, 0] := fun h => by
      have := congrFun h 1
      simp at this
    have hd : ∀ l : List ℝ, (frame 0 0 (samples l) []).data (fun _ => 0) = l.getD 0 0 ∧ (frame 0 0 (samples l) []).data ![0, 1, 0] = l.getD 1 0 :=
      fun l => ⟨rfl, rfl⟩
    refine ⟨_, h, ?_⟩
    rw [hbox, Finset.sum_singleton, hgroup, Finset.card_singleton, Nat.cast_one, div_one]
    unfold cosine
    rw [Finset.sum_pair hne, Finset.sum_pair hne, Finset.sum_pair hne, (hd [2, 1]).1, (hd [2, 1]).2, (hd [1, 1]).1, (hd [1, 1]).2,
      ← Real.sqrt_mul (by norm_num)]
    rw [div_lt_one (Real.sqrt_pos.2 (by norm_num))]
    refine Real.lt_sqrt_of_sq_lt ?_
    norm_num

/-! ## Examples meeting the hypotheses -/

/-- a trajectory of 3 frames (axis 1, also -1) of a one-dimensional state with two points; the target is zero -/
example (n : Option ℤ) : Matching [(⟨![2, 3], fun i => i 0 + i 1⟩ : NArr 2 ℝ)] [⟨![2, 3], fun _ => 0⟩] ∧
    Denotes (-1) (1 : Fin 2) ∧ Frames [(⟨![2, 3], fun i => i 0 + i 1⟩ : NArr 2 ℝ)] 1 3 ∧
    (∃ l, l2LossCumulative [(⟨![2, 3], fun i => i 0 + i 1⟩ : NArr 2 ℝ)] [⟨![2, 3], fun _ => 0⟩] n 2 (-1) = .ok l) ∧
    ∃ l, l2LossSingleStep [(⟨![2, 3], fun i => i 0 + i 1⟩ : NArr 2 ℝ)] [⟨![2, 3], fun _ => 0⟩] (-2) 2 (-1) = .ok l := by
  have h1 : Matching [(⟨![2, 3], fun i => i 0 + i 1⟩ : NArr 2 ℝ)] [⟨![2, 3], fun _ => 0⟩] := ⟨by simp, by simp⟩
  have h2 : Denotes (-1) (1 : Fin 2) := by rfl
  have h3 : Frames [(⟨![2, 3], fun i => i 0 + i 1⟩ : NArr 2 ℝ)] 1 3 := by simp [Frames]
  exact ⟨h1, h2, h3, ⟨_, C54_l2_cumulative _ _ h1 _ _ h2 3 h3 n 2⟩, ⟨_, C54_l2_single_step (d := 1) _ _ h1 _ _ h2 3 h3 (-2) (by norm_num) 2⟩⟩

/-- two different trajectories have a positive loss -/
example : ∃ l, l2LossCumulative [(⟨![2, 3], fun i => i 0 + i 1⟩ : NArr 2 ℝ)] [⟨![2, 3], fun _ => 0⟩] (some 2) 2 1 = .ok l ∧ 0 < l := by
  obtain ⟨l, h1, -, h2, h3⟩ := C54_l2_separates [(⟨![2, 3], fun i => i 0 + i 1⟩ : NArr 2 ℝ)] [⟨![2, 3], fun _ => 0⟩]
    ⟨by simp, by simp⟩ 1 1 (by rfl) 3 (by simp [Frames]) 2 2 two_pos
  refine ⟨l, h1, lt_of_le_of_ne h2 fun h => ?_⟩
  have := h3.1 h.symm _ (by simp; rfl) ![1, 1] (fun b => by fin_cases b <;> simp) (by simp)
  norm_num at this

end JaxCfd.Metric
