import Verif.Model.Reductions
import Verif.Props.Metrics

/-! # C71: reductions of metrics over batches -/

set_option linter.unusedSectionVars false

namespace JaxCfd.Metric
variable {d m : ℕ}

/-- A batch of `n` examples: at least one leaf, and every leaf has `n` entries along the batch axis. -/
structure Batch (ax : Fin (d + 1)) (args : List (NArr (d + 1) ℝ)) (n : ℕ) : Prop where
  nonempty : args ≠ []
  size : ∀ x ∈ args, x.shape ax = n

/-- `y e` is the metric of example `e`; all these values have the shape `s`. -/
def Values (metric : List (NArr d ℝ) → Except Err (NArr m ℝ)) (ax : Fin (d + 1)) (args : List (NArr (d + 1) ℝ)) (n : ℕ)
    (s : Fin m → ℕ) (y : ℕ → NArr m ℝ) : Prop :=
  ∀ e : ℕ, e < n → metric (args.map fun x => ⟨fun b => x.shape (ax.succAbove b), fun i => x.data (ax.insertNth (e : ℤ) i)⟩) = .ok (y e) ∧
    (y e).shape = s

theorem batchSize_ok {ax : Fin (d + 1)} {args : List (NArr (d + 1) ℝ)} {n : ℕ} (h : Batch ax args n) : batchSize ax args = .ok n := by
  cases args with
  | nil => exact absurd rfl h.nonempty
  | cons x xs =>
    have hx := h.size x (List.mem_cons_self ..)
    have hall : ∀ y ∈ xs, y.shape ax = x.shape ax := fun y hy => by rw [h.size y (List.mem_cons_of_mem _ hy), hx]
    unfold batchSize
    dsimp only
    rw [if_pos hall, hx]

theorem stack_range (n : ℕ) (hn : 0 < n) (s : Fin m → ℕ) (y : ℕ → NArr m ℝ) (hy : ∀ e < n, (y e).shape = s) :
    ∃ r, stack ((List.range n).map y) = .ok r ∧ r.shape = Fin.cons (α := fun _ => ℕ) n s ∧
      ∀ (e : ℕ), e < n → ∀ i : Idx m, r.data (Fin.cons (α := fun _ => ℤ) (e : ℤ) i) = (y e).data i := by
  obtain ⟨k, rfl⟩ : ∃ k, n = k + 1 := ⟨n - 1, by omega⟩
  have hlist : (List.range (k + 1)).map y = y 0 :: (List.range k).map fun e => y (e + 1) := by
    rw [List.range_succ_eq_map]; simp
  have h0 := hy 0 (by omega)
  rw [hlist]
  unfold stack
  dsimp only
  rw [if_pos (by
    intro z hz
    obtain ⟨e, he, rfl⟩ := List.mem_map.1 hz
    rw [List.mem_range] at he
    rw [hy (e + 1) (by omega), h0])]
  refine ⟨_, rfl, ?_, fun e he i => ?_⟩
  · dsimp only
    rw [h0, List.length_map, List.length_range]
  · dsimp only
    rw [← hlist]
    simp only [Fin.cons_zero, Fin.cons_succ, Int.toNat_natCast]
    rw [List.getElem?_map, List.getElem?_range he]
    rfl

theorem vmap_ok {metric : List (NArr d ℝ) → Except Err (NArr m ℝ)} {axis : ℤ} {ax : Fin (d + 1)} (hax : Denotes axis ax)
    {args : List (NArr (d + 1) ℝ)} {n : ℕ} (hb : Batch ax args n) (hn : 0 < n) {s : Fin m → ℕ} {y : ℕ → NArr m ℝ}
    (hv : Values metric ax args n s y) :
    ∃ r, vmap metric axis args = .ok r ∧ r.shape = Fin.cons (α := fun _ => ℕ) n s ∧
      ∀ (e : ℕ), e < n → ∀ i : Idx m, r.data (Fin.cons (α := fun _ => ℤ) (e : ℤ) i) = (y e).data i := by
  obtain ⟨r, hr, hr1, hr2⟩ := stack_range n hn s y fun e he => (hv e he).2
  refine ⟨r, ?_, hr1, hr2⟩
  unfold vmap
  rw [show normalizeAxis axis (d + 1) = .ok ax from hax, Except.bind_ok, batchSize_ok hb, Except.bind_ok,
    mapM_ok_map (fun e : ℕ => metric (example' ax args (e : ℤ))) y (List.range n) fun e he => (hv e (List.mem_range.1 he)).1, Except.bind_ok]
  exact hr

theorem sum_Ico_range (n : ℕ) (f : ℤ → ℝ) : ∑ k ∈ Finset.Ico (0 : ℤ) n, f k = ∑ e ∈ Finset.range n, f (e : ℤ) := by
  symm
  refine Finset.sum_nbij' (fun e : ℕ => (e : ℤ)) Int.toNat ?_ ?_ ?_ ?_ ?_
  · intro e he; rw [Finset.mem_range] at he; rw [Finset.mem_Ico]; omega
  · intro k hk; rw [Finset.mem_Ico] at hk; rw [Finset.mem_range]; omega
  · intro e _; simp
  · intro k hk; rw [Finset.mem_Ico] at hk; simp; omega
  · intro e _; rfl

/-- The reductions along the axis of examples. -/
theorem reduce_zero {r : NArr (m + 1) ℝ} {n : ℕ} {s : Fin m → ℕ} {y : ℕ → NArr m ℝ} (hs : r.shape = Fin.cons (α := fun _ => ℕ) n s)
    (hd : ∀ (e : ℕ), e < n → ∀ i : Idx m, r.data (Fin.cons (α := fun _ => ℤ) (e : ℤ) i) = (y e).data i) {axis : ℤ}
    (hax : Denotes axis (0 : Fin (m + 1))) :
    jnpSum r axis = .ok ⟨s, fun i => ∑ e ∈ Finset.range n, (y e).data i⟩ ∧
    jnpMean r axis = .ok ⟨s, fun i => (∑ e ∈ Finset.range n, (y e).data i) / (n : ℝ)⟩ := by
  have h1 : (fun b => r.shape ((0 : Fin (m + 1)).succAbove b)) = s := by
    funext b; rw [hs, Fin.zero_succAbove, Fin.cons_succ]
  have h2 : r.shape 0 = n := by rw [hs, Fin.cons_zero]
  have h3 : ∀ i : Idx m, ∑ k ∈ Finset.Ico (0 : ℤ) (n : ℕ), r.data ((0 : Fin (m + 1)).insertNth (α := fun _ => ℤ) k i) =
      ∑ e ∈ Finset.range n, (y e).data i := by
    intro i
    rw [sum_Ico_range]
    refine Finset.sum_congr rfl fun e he => ?_
    rw [Fin.insertNth_zero]
    exact hd e (Finset.mem_range.1 he) i
  unfold jnpSum jnpMean
  rw [show normalizeAxis axis (m + 1) = .ok 0 from hax, Except.bind_ok, Except.bind_ok]
  simp only [h1, h3, h2]
  exact ⟨rfl, rfl⟩

theorem denotes_zero (n : ℕ) : Denotes 0 (0 : Fin (n + 1)) := by
  unfold Denotes normalizeAxis
  rw [dif_pos (by push_cast; omega)]
  simp

/-- **C71** `local_mean` and `local_sum` of a metric over a batch (batch axis 0 of all arrays) are the mean and the sum of the
metric over the examples, for every metric with array values, every number of arrays and every batch size. -/
theorem C71_local (metric : List (NArr d ℝ) → Except Err (NArr m ℝ)) (args : List (NArr (d + 1) ℝ)) (n : ℕ) (hn : 0 < n)
    (hb : Batch 0 args n) (s : Fin m → ℕ) (y : ℕ → NArr m ℝ) (hv : Values metric 0 args n s y) :
    localMean metric 0 args = .ok ⟨s, fun i => (∑ e ∈ Finset.range n, (y e).data i) / (n : ℝ)⟩ ∧
    localSum metric 0 args = .ok ⟨s, fun i => ∑ e ∈ Finset.range n, (y e).data i⟩ := by
  obtain ⟨r, hr, hr1, hr2⟩ := vmap_ok (denotes_zero d) hb hn hv
  obtain ⟨h1, h2⟩ := reduce_zero hr1 hr2 (denotes_zero m)
  unfold localMean localSum localReduce
  rw [hr, Except.bind_ok, Except.bind_ok]
  exact ⟨h2, h1⟩

/-- **C71** Metrics with scalar values can also be batched along the last axis, given as -1. -/
theorem C71_local_last (metric : List (NArr d ℝ) → Except Err (NArr 0 ℝ)) (args : List (NArr (d + 1) ℝ)) (n : ℕ) (hn : 0 < n)
    (hb : Batch (Fin.last d) args n) (s : Fin 0 → ℕ) (y : ℕ → NArr 0 ℝ) (hv : Values metric (Fin.last d) args n s y) :
    localMean metric (-1) args = .ok ⟨s, fun i => (∑ e ∈ Finset.range n, (y e).data i) / (n : ℝ)⟩ ∧
    localSum metric (-1) args = .ok ⟨s, fun i => ∑ e ∈ Finset.range n, (y e).data i⟩ := by
  have hax : Denotes (-1) (Fin.last d) := by
    unfold Denotes normalizeAxis
    rw [dif_pos (by push_cast; omega)]
    simp [Fin.last]
  obtain ⟨r, hr, hr1, hr2⟩ := vmap_ok hax hb hn hv
  have h0 : Denotes (-1) (0 : Fin (0 + 1)) := by
    unfold Denotes normalizeAxis
    rw [dif_pos (by norm_num)]
    rfl
  obtain ⟨h1, h2⟩ := reduce_zero hr1 hr2 h0
  unfold localMean localSum localReduce
  rw [hr, Except.bind_ok, Except.bind_ok]
  exact ⟨h2, h1⟩

/-- **C71** (defect) With a batch axis `k ≥ 1` a metric with scalar values always fails: the values are stacked along axis 0 but
reduced along axis `k`. -/
theorem C71_batch_axis_defect (metric : List (NArr d ℝ) → Except Err (NArr 0 ℝ)) (args : List (NArr (d + 1) ℝ)) (k : ℕ) (hk : 0 < k) :
    (∃ e, localMean metric k args = .error e) ∧ ∃ e, localSum metric k args = .error e := by
  have h : normalizeAxis (k : ℤ) (0 + 1) = .error .value := by
    unfold normalizeAxis
    rw [dif_neg (by push_cast; omega)]
  unfold localMean localSum localReduce jnpMean jnpSum
  rw [h]
  cases vmap metric k args with
  | error e => exact ⟨⟨e, rfl⟩, ⟨e, rfl⟩⟩
  | ok r => exact ⟨⟨_, rfl⟩, ⟨_, rfl⟩⟩

/-- **C71** (defect) With batch axis 1 and values of rank at least 1, the mean is taken along the first axis of each value and the
examples stay separate: entry `e` of the result is the mean over the entries of the value of example `e`. -/
theorem C71_wrong_axis_defect (metric : List (NArr (d + 1) ℝ) → Except Err (NArr (m + 1) ℝ)) (args : List (NArr (d + 2) ℝ)) (n : ℕ) (hn : 0 < n)
    (hb : Batch 1 args n) (s : Fin (m + 1) → ℕ) (y : ℕ → NArr (m + 1) ℝ) (hv : Values metric 1 args n s y) :
    ∃ r, localMean metric 1 args = .ok r ∧ r.shape = Fin.cons (α := fun _ => ℕ) n (fun b => s b.succ) ∧ ∀ e : ℕ, e < n → ∀ i : Idx m,
      r.data (Fin.cons (α := fun _ => ℤ) (e : ℤ) i) =
        (∑ k ∈ Finset.Ico (0 : ℤ) (s 0), (y e).data (Fin.cons (α := fun _ => ℤ) k i)) / (s 0 : ℝ) := by
  have hax : ∀ j : ℕ, Denotes 1 (1 : Fin (j + 2)) := by
    intro j
    unfold Denotes normalizeAxis
    rw [dif_pos (by push_cast; omega)]
    congr 1
  obtain ⟨r, hr, hr1, hr2⟩ := vmap_ok (hax d) hb hn hv
  unfold localMean localReduce jnpMean
  rw [hr, Except.bind_ok, show normalizeAxis 1 (m + 1 + 1) = .ok 1 from hax m, Except.bind_ok]
  have hs1 : r.shape 1 = s 0 := by rw [hr1]; rfl
  refine ⟨_, rfl, ?_, fun e he i => ?_⟩
  · funext b
    dsimp only
    rw [hr1]
    refine Fin.cases ?_ (fun b => ?_) b
    · rfl
    · rw [show (1 : Fin (m + 2)).succAbove b.succ = b.succ.succ by
        rw [Fin.succAbove_of_le_castSucc]; rw [Fin.le_def]; simp]
      simp only [Fin.cons_succ]
  · dsimp only
    rw [hs1]
    congr 1
    refine Finset.sum_congr rfl fun k _ => ?_
    rw [← hr2 e he]
    congr 1
    funext b
    refine Fin.cases ?_ (fun b => Fin.cases ?_ (fun b => ?_) b) b
    · rfl
    · rfl
    · rw [show (b.succ.succ : Fin (m + 2)) = (1 : Fin (m + 2)).succAbove b.succ by
        rw [Fin.succAbove_of_le_castSucc]; rw [Fin.le_def]; simp, Fin.insertNth_apply_succAbove]
      rw [show (1 : Fin (m + 2)).succAbove b.succ = b.succ.succ by
        rw [Fin.succAbove_of_le_castSucc]; rw [Fin.le_def]; simp]
      simp only [Fin.cons_succ]

/-- **C71** The order of the examples in a batch does not matter. -/
theorem C71_permutation (metric : List (NArr d ℝ) → Except Err (NArr m ℝ)) (args args' : List (NArr (d + 1) ℝ)) (n : ℕ) (hn : 0 < n)
    (hb : Batch 0 args n) (hb' : Batch 0 args' n) (σ : Equiv.Perm (Fin n))
    (hσ : ∀ e : Fin n, example' 0 args' ((e : ℕ) : ℤ) = example' 0 args ((σ e : ℕ) : ℤ))
    (s : Fin m → ℕ) (y : ℕ → NArr m ℝ) (hv : Values metric 0 args n s y) :
    localMean metric 0 args' = localMean metric 0 args ∧ localSum metric 0 args' = localSum metric 0 args := by
  have hv' : Values metric 0 args' n s fun e => if h : e < n then y (σ ⟨e, h⟩) else y e := by
    intro e he
    dsimp only
    rw [dif_pos he]
    have h1 := hv (σ ⟨e, he⟩) (σ ⟨e, he⟩).2
    have h2 := hσ ⟨e, he⟩
    unfold example' at h2
    rw [← h2] at h1
    exact h1
  have hsum : ∀ i : Idx m, ∑ e ∈ Finset.range n, (if h : e < n then y (σ ⟨e, h⟩) else y e).data i = ∑ e ∈ Finset.range n, (y e).data i := by
    intro i
    rw [← Fin.sum_univ_eq_sum_range (fun e => (y e).data i), ← Fin.sum_univ_eq_sum_range (fun e => (if h : e < n then y (σ ⟨e, h⟩) else y e).data i)]
    simp only [Fin.is_lt, dif_pos]
    exact Equiv.sum_comp σ fun e => (y e).data i
  obtain ⟨h1, h2⟩ := C71_local metric args n hn hb s y hv
  obtain ⟨h3, h4⟩ := C71_local metric args' n hn hb' s _ hv'
  rw [h1, h2, h3, h4]
  simp only [hsum, and_self]

/-! ## Distributed batches -/

/-- The batch `whole` distributed over the devices, `n` examples each (as `jax.pmap` requires): example `e` of device `j` is example
`j * n + e`. -/
structure Sharded (whole : List (NArr (d + 1) ℝ)) (parts : List (List (NArr (d + 1) ℝ))) (n : ℕ) : Prop where
  all : Batch 0 whole (parts.length * n)
  part : ∀ p ∈ parts, Batch 0 p n
  examples : ∀ (j : ℕ) p, parts[j]? = some p → ∀ e : ℕ, e < n → example' 0 p (e : ℤ) = example' 0 whole ((j * n + e : ℕ) : ℤ)

theorem psum_ok {D : ℕ} (hD : 0 < D) (s : Fin m → ℕ) (y : ℕ → Idx m → ℝ) :
    psum ((List.range D).map fun j => (⟨s, y j⟩ : NArr m ℝ)) = .ok ⟨s, fun i => ∑ j ∈ Finset.range D, y j i⟩ := by
  have hall : ∀ l : List (NArr m ℝ), l ≠ [] → (∀ x ∈ l, x.shape = s) → psum l = .ok ⟨s, fun i => (l.map fun x => x.data i).sum⟩ := by
    intro l hl h
    cases l with
    | nil => exact absurd rfl hl
    | cons x xs =>
      have hx := h x (List.mem_cons_self ..)
      have hxs : ∀ z ∈ xs, z.shape = x.shape := fun z hz => by rw [h z (List.mem_cons_of_mem _ hz), hx]
      unfold psum
      dsimp only
      rw [if_pos hxs, hx]
  rw [hall _ (by simp; omega) (by
    intro x hx
    obtain ⟨j, -, rfl⟩ := List.mem_map.1 hx
    rfl)]
  congr 2
  funext i
  rw [List.map_map]
  rw [Finset.sum_range]
  simp only [Function.comp_def]
  rw [← List.sum_ofFn]
  congr 1
  refine List.ext_getElem (by simp) fun k h1 h2 => by simp

theorem sum_shards (D n : ℕ) (f : ℕ → ℝ) : ∑ j ∈ Finset.range D, ∑ e ∈ Finset.range n, f (j * n + e) = ∑ k ∈ Finset.range (D * n), f k := by
  induction D with
  | zero => simp
  | succ D ih => rw [Finset.sum_range_succ, ih, Nat.add_mul, one_mul, Finset.sum_range_add]

/-- **C71** Distributing a batch over devices does not change the result: the distributed mean of local means is the mean over the
whole batch, the distributed sum of local sums is the sum over the whole batch, for every number of devices. -/
theorem C71_distributed (metric : List (NArr d ℝ) → Except Err (NArr m ℝ)) (whole : List (NArr (d + 1) ℝ))
    (parts : List (List (NArr (d + 1) ℝ))) (n : ℕ) (hn : 0 < n) (hp : parts ≠ []) (h : Sharded whole parts n)
    (s : Fin m → ℕ) (y : ℕ → NArr m ℝ) (hv : Values metric 0 whole (parts.length * n) s y) :
    (∃ r, localMean metric 0 whole = .ok r ∧ distributedMean (localMean metric 0) parts = .ok r) ∧
    ∃ r, localSum metric 0 whole = .ok r ∧ distributedSum (localSum metric 0) parts = .ok r := by
  have hD : 0 < parts.length := List.length_pos_of_ne_nil hp
  obtain ⟨w1, w2⟩ := C71_local metric whole _ (Nat.mul_pos hD hn) h.all s y hv
  have hloc : ∀ (j : ℕ) p, parts[j]? = some p →
      localMean metric 0 p = .ok ⟨s, fun i => (∑ e ∈ Finset.range n, (y (j * n + e)).data i) / (n : ℝ)⟩ ∧
      localSum metric 0 p = .ok ⟨s, fun i => ∑ e ∈ Finset.range n, (y (j * n + e)).data i⟩ := by
    intro j p hj
    obtain ⟨hj1, -⟩ := List.getElem?_eq_some_iff.1 hj
    refine C71_local metric p n hn (h.part p (List.mem_of_getElem? hj)) s (fun e => y (j * n + e)) fun e he => ?_
    have hlt : j * n + e < parts.length * n := by
      calc j * n + e < j * n + n := by omega
        _ = (j + 1) * n := by ring
        _ ≤ parts.length * n := Nat.mul_le_mul_right _ hj1
    have h1 := hv (j * n + e) hlt
    have h2 := h.examples j p hj e he
    unfold example' at h2
    rw [← h2] at h1
    exact h1
  have hall : ∀ (f : List (NArr (d + 1) ℝ) → Except Err (NArr m ℝ)) (z : ℕ → Idx m → ℝ),
      (∀ (j : ℕ) p, parts[j]? = some p → f p = .ok ⟨s, z j⟩) →
      parts.mapM f = .ok ((List.range parts.length).map fun j => (⟨s, z j⟩ : NArr m ℝ)) := by
    intro f z hf
    rw [mapM_eq_ok, List.forall₂_iff_get]
    refine ⟨by simp, fun k h1 h2 => ?_⟩
    rw [List.get_eq_getElem, List.get_eq_getElem, List.getElem_map, List.getElem_range]
    exact hf k _ (List.getElem?_eq_getElem h1)
  refine ⟨⟨_, w1, ?_⟩, ⟨_, w2, ?_⟩⟩
  · unfold distributedMean distributedReduce pmean
    rw [hall _ _ fun j p hj => (hloc j p hj).1, Except.bind_ok, psum_ok hD, Except.bind_ok]
    show Except.ok _ = Except.ok _
    congr 2
    funext i
    dsimp only
    rw [← Finset.sum_div, sum_shards _ _ fun k => (y k).data i, List.length_map, List.length_range]
    push_cast
    rw [div_div, mul_comm (n : ℝ)]
  · unfold distributedSum distributedReduce
    rw [hall _ _ fun j p hj => (hloc j p hj).2, Except.bind_ok, psum_ok hD]
    congr 2
    funext i
    rw [sum_shards _ _ fun k => (y k).data i]

/-! ## The losses -/

theorem sum_box_cons (n : ℕ) (s : Fin d → ℕ) (p : Idx d → Prop) [DecidablePred p] (f : Idx (d + 1) → ℝ) (S : Fin (d + 1) → ℕ)
    (h0 : S 0 = n) (hS : ∀ b, S b.succ = s b) :
    ∑ e ∈ Finset.range n, ∑ i ∈ (box s).filter p, f (Fin.cons (α := fun _ => ℤ) (e : ℤ) i) =
      ∑ i ∈ (box S).filter (fun i : Idx (d + 1) => p fun b => i b.succ), f i := by
  rw [← Finset.sum_product']
  refine Finset.sum_nbij' (fun q : ℕ × Idx d => (Fin.cons (α := fun _ => ℤ) (q.1 : ℤ) q.2 : Idx (d + 1)))
    (fun i : Idx (d + 1) => ((i 0).toNat, fun b => i b.succ)) ?_ ?_ ?_ ?_ ?_
  · rintro ⟨e, i⟩ hq
    rw [Finset.mem_product, Finset.mem_range, Finset.mem_filter, mem_box] at hq
    rw [Finset.mem_filter, mem_box]
    refine ⟨fun b => ?_, ?_⟩
    · refine Fin.cases ?_ (fun b => ?_) b
      · rw [Fin.cons_zero, h0]; dsimp only at hq ⊢; omega
      · rw [Fin.cons_succ, hS]; exact hq.2.1 b
    · simpa only [Fin.cons_succ] using hq.2.2
  · intro i hi
    rw [Finset.mem_filter, mem_box] at hi
    rw [Finset.mem_product, Finset.mem_range, Finset.mem_filter, mem_box]
    have h1 := hi.1 0
    rw [h0] at h1
    refine ⟨by dsimp only; omega, fun b => ?_, hi.2⟩
    have := hi.1 b.succ
    rw [hS] at this
    exact this
  · rintro ⟨e, i⟩ _
    simp
  · intro i hi
    rw [Finset.mem_filter, mem_box] at hi
    have h1 := hi.1 0
    funext b
    refine Fin.cases ?_ (fun b => ?_) b
    · rw [Fin.cons_zero]; dsimp only; omega
    · rw [Fin.cons_succ]
  · intro q _; rfl

/-- A metric of two arguments, `k` leaves in the first. -/
def twoArguments (k : ℕ) (f : List (NArr d ℝ) → List (NArr d ℝ) → Except Err ℝ) : List (NArr d ℝ) → Except Err (NArr 0 ℝ) :=
  scalarMetric fun a => f (a.take k) (a.drop k)

theorem sqErr_batch (xs ys : List (NArr (d + 1) ℝ)) (n : ℕ) (hx : ∀ x ∈ xs, x.shape 0 = n) (ax : Fin d) (p : ℤ → Prop) [DecidablePred p] :
    ∑ e ∈ Finset.range n, sqErr ax p (example' 0 xs (e : ℤ)) (example' 0 ys (e : ℤ)) = sqErr ax.succ p xs ys := by
  unfold sqErr example'
  simp only [List.zip_map, List.map_map]
  have hz : ∀ xy ∈ xs.zip ys, xy.1.shape 0 = n := fun xy hxy => hx _ (List.of_mem_zip hxy).1
  generalize xs.zip ys = l at hz
  induction l with
  | nil => simp
  | cons xy l ih =>
    simp only [List.map_cons, List.sum_cons]
    rw [Finset.sum_add_distrib, ih fun q hq => hz q (List.mem_cons_of_mem _ hq)]
    congr 1
    rw [← sum_box_cons n (fun b => xy.1.shape b.succ) (fun i => p (i ax)) (fun i => (xy.1.data i - xy.2.data i) ^ 2) xy.1.shape
      (hz xy (List.mem_cons_self ..)) fun _ => rfl]
    refine Finset.sum_congr rfl fun e _ => ?_
    simp only [Function.comp_apply, Prod.map_apply, Fin.insertNth_zero, Fin.zero_succAbove]
    rfl

/-- **C71** Summing a loss over the examples of a batch is the loss of the batch, whose time axis is one further to the right: for
`l2_loss_cumulative` with any `n`, scale and time axis. -/
theorem C71_l2_cumulative_batch (xs ys : List (NArr (d + 1) ℝ)) (hm : Matching xs ys) (B : ℕ) (hB : 0 < B) (hb : Batch 0 (xs ++ ys) B)
    (ax : Fin d) (N : ℕ) (hN : Frames xs ax.succ N) (n : Option ℤ) (scale : ℝ) :
    ∃ l, l2LossCumulative xs ys n scale ((ax : ℕ) + 1) = .ok l ∧
      localSum (twoArguments xs.length fun x y => l2LossCumulative x y n scale (ax : ℕ)) 0 (xs ++ ys) =
        .ok ⟨fun b => b.elim0, fun _ => l⟩ := by
  have hden : ∀ (k : ℕ) (a : Fin k), Denotes ((a : ℕ) : ℤ) a := by
    intro k a
    unfold Denotes normalizeAxis
    have := a.2
    rw [dif_pos (by omega)]
    congr 1
  have hax : Denotes (((ax : ℕ) : ℤ) + 1) ax.succ := by
    have := hden _ ax.succ
    rw [Fin.val_succ] at this
    push_cast at this
    exact this
  refine ⟨_, C54_l2_cumulative xs ys hm _ ax.succ hax N hN n scale, ?_⟩
  have hval : Values (twoArguments xs.length fun x y => l2LossCumulative x y n scale (ax : ℕ)) 0 (xs ++ ys) B (fun b : Fin 0 => b.elim0)
      (fun e : ℕ => ⟨fun b => b.elim0, fun _ => scale * sqErr ax
        (fun t => t < match n with | none => (N : ℤ) | some k => if k < 0 then N + k else k) (example' 0 xs (e : ℤ)) (example' 0 ys (e : ℤ))⟩) := by
    intro e _
    refine ⟨?_, rfl⟩
    show twoArguments _ _ (example' 0 (xs ++ ys) (e : ℤ)) = _
    have hsplit : example' 0 (xs ++ ys) (e : ℤ) = example' 0 xs (e : ℤ) ++ example' 0 ys (e : ℤ) := by
      unfold example'; rw [List.map_append]
    have hlen : (example' 0 xs (e : ℤ)).length = xs.length := by unfold example'; rw [List.length_map]
    unfold twoArguments scalarMetric
    rw [hsplit]
    beta_reduce
    rw [List.take_left' hlen, List.drop_left' hlen]
    rw [C54_l2_cumulative (example' 0 xs (e : ℤ)) (example' 0 ys (e : ℤ)) ⟨by
        intro h; apply hm.1; unfold example' at h; exact List.map_eq_nil_iff.1 h, by
        unfold example'
        rw [List.forall₂_map_left_iff, List.forall₂_map_right_iff]
        exact hm.2.imp fun x y hxy => by dsimp only; rw [hxy]⟩ _ ax (hden _ ax) N (by
        intro x hx
        unfold example' at hx
        obtain ⟨x', hx', rfl⟩ := List.mem_map.1 hx
        show x'.shape ((0 : Fin (d + 1)).succAbove ax) = N
        rw [Fin.zero_succAbove]
        exact hN x' hx') n scale]
    rfl
  rw [(C71_local _ _ B hB hb _ _ hval).2]
  congr 2
  funext i
  rw [← Finset.mul_sum, sqErr_batch xs ys B (fun x hx => hb.size x (List.mem_append_left _ hx))]
  cases n <;> rfl

/-! ## Concrete cases -/

/-- four examples of three frames each -/
def batch3 : NArr 2 ℝ := ⟨![4, 3], fun i => (i 0 : ℝ) * 2 + (i 1 : ℝ)⟩
def batch4 : NArr 2 ℝ := ⟨![4, 3], fun i => (i 0 : ℝ) ^ 2 + (i 1 : ℝ)⟩

example : Matching [batch3] [batch4] ∧ Batch 0 ([batch3] ++ [batch4]) 4 ∧ Frames [batch3] (Fin.succ (0 : Fin 1)) 3 :=
  ⟨⟨by simp, .cons rfl .nil⟩, ⟨by simp, by intro x hx; simp at hx; rcases hx with rfl | rfl <;> rfl⟩, by
    intro x hx; simp at hx; subst hx; rfl⟩

/-- a metric with array values, on every example -/
example : Values (fun args => match args with | x :: _ => .ok x | [] => .error .value) 0 [batch3] 4 ![3]
    (fun e => ⟨![3], fun i => (e : ℝ) * 2 + (i 0 : ℝ)⟩) := by
  intro e _
  refine ⟨?_, rfl⟩
  show Except.ok _ = Except.ok _
  congr 2

/-- the batch on two devices -/
example : Sharded [batch3] [[⟨![2, 3], batch3.data⟩], [⟨![2, 3], fun i => batch3.data ![i 0 + 2, i 1]⟩]] 2 := by
  refine ⟨⟨by simp, by intro x hx; simp at hx; subst hx; rfl⟩, ?_, ?_⟩
  · intro p hp
    simp at hp
    rcases hp with rfl | rfl <;> exact ⟨by simp, by intro x hx; simp at hx; subst hx; rfl⟩
  · intro j p hj e he
    have hsh : ∀ k : ℕ, (fun b => (![k, 3] : Fin 2 → ℕ) ((0 : Fin 2).succAbove b)) = fun _ => 3 := by
      intro k; funext b; fin_cases b; rfl
    rcases j with _ | _ | j
    · simp only [List.getElem?_cons_zero, Option.some.injEq] at hj
      subst hj
      unfold example'
      simp only [List.map_cons, List.map_nil, batch3, hsh, zero_mul, zero_add]
    · simp only [List.getElem?_cons_succ, List.getElem?_cons_zero, Option.some.injEq, zero_add] at hj
      subst hj
      unfold example'
      simp only [List.map_cons, List.map_nil, batch3, hsh, zero_add, one_mul]
      congr 2
      funext i
      simp only [Fin.insertNth_zero, Matrix.cons_val_zero, Matrix.cons_val_one, Fin.cons_zero]
      push_cast
      show ((e : ℝ) + 2) * 2 + ((i 0 : ℤ) : ℝ) = (2 + e) * 2 + ((i 0 : ℤ) : ℝ)
      ring
    · simp at hj

end JaxCfd.Metric
