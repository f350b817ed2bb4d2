import Verif.Model.Metrics

/-!
# `jax_cfd/ml/metrics.py`: reductions of metrics over local and distributed batches

The positional arguments of a metric are the list of their leaves, arrays of one rank.  Keyword arguments (which `jax.vmap` maps
over axis 0) are not modelled.
-/

namespace JaxCfd.Metric
variable {d m : ℕ}

/-- Example `e` of a batch: every leaf at position `e` of the batch axis. -/
def example' (ax : Fin (d + 1)) (args : List (NArr (d + 1) ℝ)) (e : ℤ) : List (NArr d ℝ) :=
  args.map fun x => ⟨fun b => x.shape (ax.succAbove b), fun i => x.data (ax.insertNth e i)⟩

/-- The batch size: the common size of the batch axis (`jax.vmap` raises ValueError if there is none). -/
def batchSize (ax : Fin (d + 1)) : List (NArr (d + 1) ℝ) → Except Err ℕ
  | [] => .error .value
  | x :: xs => if ∀ y ∈ xs, y.shape ax = x.shape ax then .ok (x.shape ax) else .error .value

/-- `jax.vmap(metric, batch_axis)(*args)` as used in metrics.py:99: the metric of every example, stacked along a new axis 0.  The
batch axis of the arguments is counted in each leaf.  Tracing makes the shape of the results independent of the values; an empty
batch is not modelled (error). -/
def vmap (metric : List (NArr d ℝ) → Except Err (NArr m ℝ)) (batchAxis : ℤ) (args : List (NArr (d + 1) ℝ)) :
    Except Err (NArr (m + 1) ℝ) := do
  let ax ← normalizeAxis batchAxis (d + 1)
  let n ← batchSize ax args
  let ys ← (List.range n).mapM fun e : ℕ => metric (example' ax args (e : ℤ))
  stack ys

/-- `jnp.sum(x, axis)`: rank reduced by one. -/
noncomputable def jnpSum (x : NArr (m + 1) ℝ) (axis : ℤ) : Except Err (NArr m ℝ) := do
  let ax ← normalizeAxis axis (m + 1)
  return ⟨fun b => x.shape (ax.succAbove b), fun i => ∑ k ∈ Finset.Ico (0 : ℤ) (x.shape ax), x.data (ax.insertNth k i)⟩

/-- `jnp.mean(x, axis)`: rank reduced by one. -/
noncomputable def jnpMean (x : NArr (m + 1) ℝ) (axis : ℤ) : Except Err (NArr m ℝ) := do
  let ax ← normalizeAxis axis (m + 1)
  return ⟨fun b => x.shape (ax.succAbove b),
    fun i => (∑ k ∈ Finset.Ico (0 : ℤ) (x.shape ax), x.data (ax.insertNth k i)) / (x.shape ax : ℝ)⟩

/-- `local_reduce` (metrics.py:78-102). -/
def localReduce (metric : List (NArr d ℝ) → Except Err (NArr m ℝ)) (reduction : NArr (m + 1) ℝ → ℤ → Except Err (NArr m ℝ))
    (batchAxis : ℤ := 0) (args : List (NArr (d + 1) ℝ)) : Except Err (NArr m ℝ) := do
  let v ← vmap metric batchAxis args
  reduction v batchAxis

/-- `local_mean` (metrics.py:144). -/
noncomputable def localMean (metric : List (NArr d ℝ) → Except Err (NArr m ℝ)) (batchAxis : ℤ := 0) (args : List (NArr (d + 1) ℝ)) :
    Except Err (NArr m ℝ) := localReduce metric jnpMean batchAxis args

/-- `local_sum` (metrics.py:145). -/
noncomputable def localSum (metric : List (NArr d ℝ) → Except Err (NArr m ℝ)) (batchAxis : ℤ := 0) (args : List (NArr (d + 1) ℝ)) :
    Except Err (NArr m ℝ) := localReduce metric jnpSum batchAxis args

/-- `jax.lax.psum` over the devices: all of them receive the sum of their values. -/
noncomputable def psum : List (NArr m ℝ) → Except Err (NArr m ℝ)
  | [] => .error .value
  | x :: xs => if ∀ y ∈ xs, y.shape = x.shape then .ok ⟨x.shape, fun i => ((x :: xs).map fun y => y.data i).sum⟩ else .error .type

/-- `jax.lax.pmean`: the sum divided by the number of devices. -/
noncomputable def pmean (xs : List (NArr m ℝ)) : Except Err (NArr m ℝ) := do
  let s ← psum xs
  return ⟨s.shape, fun i => s.data i / (xs.length : ℝ)⟩

/-- `distributed_reduce` inside a `pmap` (metrics.py:105-141): `devices` are the arguments of each device, the collective
`reduction_function` combines the values of all devices. -/
def distributedReduce {α : Type} (metric : α → Except Err (NArr m ℝ)) (reduction : List (NArr m ℝ) → Except Err (NArr m ℝ))
    (devices : List α) : Except Err (NArr m ℝ) := do
  let vs ← devices.mapM metric
  reduction vs

/-- `distributed_mean` (metrics.py:146-147). -/
noncomputable def distributedMean {α : Type} (metric : α → Except Err (NArr m ℝ)) (devices : List α) : Except Err (NArr m ℝ) :=
  distributedReduce metric pmean devices

/-- `distributed_sum` (metrics.py:148-149). -/
noncomputable def distributedSum {α : Type} (metric : α → Except Err (NArr m ℝ)) (devices : List α) : Except Err (NArr m ℝ) :=
  distributedReduce metric psum devices

/-- A metric with a scalar value as an array of rank 0. -/
def scalarMetric (f : List (NArr d ℝ) → Except Err ℝ) (args : List (NArr d ℝ)) : Except Err (NArr 0 ℝ) := do
  let x ← f args
  return ⟨fun b => b.elim0, fun _ => x⟩

end JaxCfd.Metric
