import Verif.Lemmas.ConjugateGradient
import Verif.Model.ConjugateGradient
import Verif.Lemmas.Boundaries
import Verif.Lemmas.FD

/-!
The loop on grid arrays follows the abstract iteration.
-/

namespace JaxCfd.CG
variable {ι : Type} [Fintype ι]

/-- The while loop on vectors. -/
noncomputable def loop (A : (ι → ℝ) →ₗ[ℝ] (ι → ℝ)) (t : ℝ) : ℕ → State ι → State ι
  | 0, s => s
  | k + 1, s => if t < dot s.r s.r then loop A t k (step A s) else s

theorem loop_stops {A : (ι → ℝ) →ₗ[ℝ] (ι → ℝ)} {t : ℝ} (ht : 0 ≤ t) {b x0 : ι → ℝ} : ∀ (k n j : ℕ), n ≤ j → j ≤ n + k →
    (iter A b x0 j).r = 0 → ∃ m, loop A t k (iter A b x0 n) = iter A b x0 m ∧ dot (iter A b x0 m).r (iter A b x0 m).r ≤ t
  | 0, n, j, h1, h2, h => by
      obtain rfl : j = n := by omega
      refine ⟨j, rfl, ?_⟩
      rw [h]
      have : dot (0 : ι → ℝ) 0 = 0 := by unfold dot; simp
      rw [this]; exact ht
  | k + 1, n, j, h1, h2, h => by
      unfold loop
      by_cases hc : t < dot (iter A b x0 n).r (iter A b x0 n).r
      · rw [if_pos hc, ← iter_succ]
        refine loop_stops ht k (n + 1) j ?_ (by omega) h
        rcases Nat.lt_or_eq_of_le h1 with h1 | rfl
        · exact h1
        · rw [h] at hc
          have : dot (0 : ι → ℝ) 0 = 0 := by unfold dot; simp
          rw [this] at hc
          exact absurd hc (not_lt.2 ht)
      · rw [if_neg hc]
        exact ⟨n, rfl, not_lt.1 hc⟩

end JaxCfd.CG

namespace JaxCfd
open CG
variable {d : ℕ}

/-- The cells of a grid. -/
abbrev Cells (s : Fin d → ℕ) := {i : Idx d // i ∈ box s}

/-- The entries at the cells. -/
def restrict (s : Fin d → ℕ) (f : Idx d → ℝ) : Cells s → ℝ := fun i => f i.1

/-- A vector as data of an array. -/
def extend (s : Fin d → ℕ) (f : Cells s → ℝ) : Idx d → ℝ := fun i => open Classical in if h : i ∈ box s then f ⟨i, h⟩ else 0

theorem restrict_extend (s : Fin d → ℕ) (f : Cells s → ℝ) : restrict s (extend s f) = f := by
  funext i; unfold restrict extend; rw [dif_pos i.2]

theorem extend_restrict {s : Fin d → ℕ} (f : Idx d → ℝ) {i : Idx d} (hi : InR s i) : extend s (restrict s f) i = f i := by
  unfold restrict extend; rw [dif_pos (mem_box.2 hi)]

theorem sum_cells (s : Fin d → ℕ) (f : Idx d → ℝ) : ∑ i ∈ box s, f i = ∑ i : Cells s, f i.1 :=
  (Finset.sum_coe_sort (box s) f).symm

theorem dot_restrict (s : Fin d → ℕ) (f h : Idx d → ℝ) : dot (restrict s f) (restrict s h) = ∑ i ∈ box s, f i * h i :=
  (sum_cells s fun i => f i * h i).symm

theorem card_cells (s : Fin d → ℕ) : Fintype.card (Cells s) = ∏ a, s a := by
  rw [Fintype.card_coe]
  unfold box
  rw [Fintype.card_piFinset]
  exact Finset.prod_congr rfl fun b _ => by simp

/-- Arrays on a given grid, at a given offset, with one entry per cell of the shape. -/
structure Layout (s : Fin d → ℕ) (o : Fin d → ℚ) (g : Grid d ℝ) (u : GridArray d ℝ) : Prop where
  shape : u.shape = s
  offset : u.offset = o
  grid : u.grid = g

/-- The operator on arrays of the layout is the matrix `T` on their entries. -/
def Realizes (s : Fin d → ℕ) (o : Fin d → ℚ) (g : Grid d ℝ) (A : GridArray d ℝ → Except Err (GridArray d ℝ))
    (T : (Cells s → ℝ) →ₗ[ℝ] (Cells s → ℝ)) : Prop :=
  ∀ u, Layout s o g u → ∃ w, A u = .ok w ∧ Layout s o g w ∧ restrict s w.data = T (restrict s u.data)

section
variable {s : Fin d → ℕ} {o : Fin d → ℚ} {g : Grid d ℝ}

theorem treeCombine_ok {u v : GridArray d ℝ} (hu : Layout s o g u) (hv : Layout s o g v) (f : ℝ → ℝ → ℝ) :
    treeCombine f u v = .ok ⟨⟨s, fun i => f (u.data i) (v.data i)⟩, o, g⟩ := by
  unfold treeCombine
  rw [if_neg (by rw [hu.offset, hv.offset, hu.grid, hv.grid]; simp), if_neg (by rw [hu.shape, hv.shape]; simp), hu.shape,
    hu.offset, hu.grid]

theorem inner_layout {u v : GridArray d ℝ} (hu : Layout s o g u) :
    inner u.toNArr v.toNArr = dot (restrict s u.data) (restrict s v.data) := by
  unfold inner; rw [dot_restrict, hu.shape]

/-- The state of the program and the state of the abstract iteration. -/
structure Follows (s : Fin d → ℕ) (o : Fin d → ℚ) (g : Grid d ℝ) (c : CGState d) (a : State (Cells s)) : Prop where
  lx : Layout s o g c.x
  lr : Layout s o g c.r
  lp : Layout s o g c.p
  ex : restrict s c.x.data = a.x
  er : restrict s c.r.data = a.r
  ep : restrict s c.p.data = a.p
  eg : c.gamma = dot a.r a.r

theorem cgBody_follows {A : GridArray d ℝ → Except Err (GridArray d ℝ)} {T : (Cells s → ℝ) →ₗ[ℝ] (Cells s → ℝ)}
    (hA : Realizes s o g A T) {c : CGState d} {a : State (Cells s)} (h : Follows s o g c a) :
    ∃ c', cgBody A c = .ok c' ∧ Follows s o g c' (step T a) := by
  obtain ⟨w, hw, lw, ew⟩ := hA c.p h.lp
  unfold cgBody
  rw [hw, Except.bind_ok]
  dsimp only
  rw [treeCombine_ok h.lx h.lp, Except.bind_ok, treeCombine_ok h.lr lw, Except.bind_ok]
  have lr : Layout s o g ⟨⟨s, fun i => c.r.data i - c.gamma / inner c.p.toNArr w.toNArr * w.data i⟩, o, g⟩ := ⟨rfl, rfl, rfl⟩
  rw [treeCombine_ok lr h.lp, Except.bind_ok]
  have e1 : inner c.p.toNArr w.toNArr = dot a.p (T a.p) := by rw [inner_layout h.lp, ew, h.ep]
  have er : restrict s (fun i => c.r.data i - c.gamma / inner c.p.toNArr w.toNArr * w.data i) = (step T a).r := by
    rw [e1, h.eg]
    funext i
    have h1 := congrFun h.er i
    have h2 := congrFun ew i
    rw [h.ep] at h2
    simp only [restrict] at h1 h2 ⊢
    simp only [step, Pi.sub_apply, Pi.smul_apply, smul_eq_mul]
    rw [h1, h2]
  have eg : inner (⟨s, fun i => c.r.data i - c.gamma / inner c.p.toNArr w.toNArr * w.data i⟩ : NArr d ℝ)
      ⟨s, fun i => c.r.data i - c.gamma / inner c.p.toNArr w.toNArr * w.data i⟩ = dot (step T a).r (step T a).r := by
    rw [← er, dot_restrict]; rfl
  refine ⟨_, rfl, ⟨rfl, rfl, rfl⟩, lr, ⟨rfl, rfl, rfl⟩, ?_, er, ?_, eg⟩
  · dsimp only
    rw [e1, h.eg]
    funext i
    have h1 := congrFun h.ex i
    have h2 := congrFun h.ep i
    simp only [restrict] at h1 h2 ⊢
    simp only [step, Pi.add_apply, Pi.smul_apply, smul_eq_mul]
    rw [h1, h2]
  · dsimp only
    rw [eg]
    funext i
    have h1 := congrFun er i
    have h2 := congrFun h.ep i
    simp only [restrict] at h1 h2 ⊢
    rw [h1, h2, h.eg]
    simp only [step, Pi.add_apply, Pi.smul_apply, smul_eq_mul]

theorem cgLoop_follows {A : GridArray d ℝ → Except Err (GridArray d ℝ)} {T : (Cells s → ℝ) →ₗ[ℝ] (Cells s → ℝ)}
    (hA : Realizes s o g A T) (t : ℝ) : ∀ (k : ℕ) {c : CGState d} {a : State (Cells s)}, Follows s o g c a →
    ∃ c', cgLoop A t k c = .ok c' ∧ Follows s o g c' (loop T t k a)
  | 0, c, a, h => ⟨c, rfl, h⟩
  | k + 1, c, a, h => by
      unfold cgLoop loop
      rw [h.eg]
      by_cases hc : t < dot a.r a.r
      · rw [if_pos hc, if_pos hc]
        obtain ⟨c', h1, h2⟩ := cgBody_follows hA h
        rw [h1, Except.bind_ok]
        exact cgLoop_follows hA t k h2
      · rw [if_neg hc, if_neg hc]
        exact ⟨c, rfl, h⟩

/-- In exact arithmetic the conjugate gradient method meets its tolerance for every symmetric semidefinite operator and every
right-hand side orthogonal to its kernel, whatever the initial guess, if it may take as many iterations as there are unknowns. -/
theorem conjGrad_converges {A : GridArray d ℝ → Except Err (GridArray d ℝ)} {T : (Cells s → ℝ) →ₗ[ℝ] (Cells s → ℝ)}
    (hA : Realizes s o g A T) (hsym : ∀ x y, dot (T x) y = dot x (T y)) (hker : ∀ y, dot y (T y) = 0 → T y = 0)
    {b x0 : GridArray d ℝ} (hb : Layout s o g b) (hx : Layout s o g x0) (hs : ∀ y, T y = 0 → dot y (restrict s b.data) = 0)
    (opt : CGOptions) (hm : ∀ m, opt.maxiter = some m → ∏ a, s a ≤ m) :
    ∃ x w, conjGrad opt A b x0 = .ok x ∧ Layout s o g x ∧ A x = .ok w ∧ Layout s o g w ∧
      ∑ i ∈ box s, (b.data i - w.data i) ^ 2 ≤ max (opt.rtol ^ 2 * ∑ i ∈ box s, b.data i ^ 2) (opt.atol ^ 2) := by
  obtain ⟨ax, hax, la, ea⟩ := hA x0 hx
  have lr : Layout s o g ⟨⟨s, fun i => b.data i - ax.data i⟩, o, g⟩ := ⟨rfl, rfl, rfl⟩
  have er : restrict s (fun i => b.data i - ax.data i) = restrict s b.data - T (restrict s x0.data) := by
    rw [← ea]; rfl
  set t := max (opt.rtol ^ 2 * inner b.toNArr b.toNArr) (opt.atol ^ 2) with ht
  have ht0 : 0 ≤ t := le_max_of_le_right (sq_nonneg _)
  have hF : Follows s o g ⟨x0, ⟨⟨s, fun i => b.data i - ax.data i⟩, o, g⟩,
      inner (⟨s, fun i => b.data i - ax.data i⟩ : NArr d ℝ) ⟨s, fun i => b.data i - ax.data i⟩,
      ⟨⟨s, fun i => b.data i - ax.data i⟩, o, g⟩⟩ (iter T (restrict s b.data) (restrict s x0.data) 0) :=
    ⟨hx, lr, lr, rfl, er, er, by
      have : (iter T (restrict s b.data) (restrict s x0.data) 0).r = restrict s (fun i => b.data i - ax.data i) := er.symm
      rw [this, dot_restrict]; rfl⟩
  obtain ⟨c, hc, hf⟩ := cgLoop_follows hA t (opt.maxiter.getD (10 * ∏ a, b.shape a)) hF
  have hrange : restrict s b.data - T (restrict s x0.data) ∈ LinearMap.range T :=
    Submodule.sub_mem _ (mem_range hsym hs) (LinearMap.mem_range_self _ _)
  obtain ⟨j, hj, hj0⟩ := terminates hsym (definite_on_range hsym hker) hrange
  have hk : j ≤ 0 + opt.maxiter.getD (10 * ∏ a, b.shape a) := by
    rw [card_cells] at hj
    rw [hb.shape]
    cases hmm : opt.maxiter with
    | none => show j ≤ 0 + 10 * ∏ a, s a; omega
    | some m => have := hm m hmm; show j ≤ 0 + m; omega
  obtain ⟨m, hm1, hm2⟩ := loop_stops ht0 _ 0 j (by omega) hk hj0
  rw [hm1] at hf
  obtain ⟨w, hw, lw, ew⟩ := hA c.x hf.lx
  refine ⟨c.x, w, ?_, hf.lx, hw, lw, ?_⟩
  · unfold conjGrad
    rw [if_neg (by rw [hx.offset, hx.grid, hx.shape, hb.offset, hb.grid, hb.shape]; simp), hax, Except.bind_ok,
      treeCombine_ok hb la, Except.bind_ok]
    dsimp only
    rw [hc]
    rfl
  · have e1 : ∑ i ∈ box s, (b.data i - w.data i) ^ 2 = dot (iter T (restrict s b.data) (restrict s x0.data) m).r
        (iter T (restrict s b.data) (restrict s x0.data) m).r := by
      have : (iter T (restrict s b.data) (restrict s x0.data) m).r = restrict s (fun i => b.data i - w.data i) := by
        rw [iter_residual, ← hf.ex, ← ew]; rfl
      rw [this, dot_restrict]
      exact Finset.sum_congr rfl fun i _ => sq _
    rw [e1]
    refine hm2.trans_eq ?_
    rw [ht]
    congr 2
    unfold inner
    rw [hb.shape]
    exact Finset.sum_congr rfl fun i _ => (sq _).symm

end
end JaxCfd
