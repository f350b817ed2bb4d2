import Verif.Model.ArrayUtils
import Mathlib.Data.Real.Basic

/-!
# `jax_cfd/ml/train_utils.py`

A Python dict is the list of its entries in insertion order.  `jax.value_and_grad`, the optimizer and the random numbers are parameters;
`jax.jit` does not change values.
-/

namespace JaxCfd.Train
variable {d : ℕ}

/-- A dict of metrics: entries in insertion order. -/
abbrev Metrics := List (String × ℝ)

/-- `eval_metrics[k] += v` of a `defaultdict(float)` (train_utils.py:159, 164). -/
noncomputable def addTo : Metrics → String → ℝ → Metrics
  | [], k, v => [(k, 0 + v)]
  | (k', x) :: rest, k, v => if k' = k then (k', x + v) :: rest else (k', x) :: addTo rest k v

/-- One pass of the loop of `streaming_mean` (train_utils.py:161-165). -/
noncomputable def streamingStep {B : Type} (evalFn : B → Except Err Metrics) (s : Metrics × ℕ) (batch : B) : Except Err (Metrics × ℕ) := do
  let m ← evalFn batch
  return (m.foldl (fun acc kv => addTo acc kv.1 kv.2) s.1, s.2 + 1)

/-- `streaming_mean` (train_utils.py:142-168). -/
noncomputable def streamingMean {B : Type} (batches : List B) (evalFn : B → Except Err Metrics) : Except Err Metrics := do
  let s ← batches.foldlM (streamingStep evalFn) ([], 0)
  if s.2 = 0 then .error .runtime else .ok (s.1.map fun kv => (kv.1, kv.2 / s.2))

/-- `eval_batch` (train_utils.py:116-139). -/
def evalBatch {P V : Type} (trajectory : P → V → Except Err (V × V)) (metrics : List (String × (V → V → Except Err ℝ))) (params : P) (target : V) :
    Except Err Metrics := do
  let pred ← trajectory params target
  metrics.mapM fun km => do
    let x ← km.2 pred.2 target
    return (km.1, x)

/-- The function `loss_and_gradient` differentiates (train_utils.py:77-81). -/
def loss {P V : Type} (trajectory : P → V → Except Err (V × V)) (lossFn : V → V → Except Err ℝ) (params : P) (target : V) : Except Err ℝ := do
  let pred ← trajectory params target
  lossFn pred.2 target

/-- `train_step` (train_utils.py:85-113). -/
def trainStep {P G O T : Type} (lossAndGrad : P → T → Except Err (ℝ × G)) (update : ℤ → G → O → Except Err O) (getParams : O → Except Err P)
    (s : ℤ × O) (target : T) : Except Err ((ℤ × O) × ℝ) := do
  let p ← getParams s.2
  let lg ← lossAndGrad p target
  let o ← update s.1 lg.2 s.2
  return ((s.1 + 1, o), lg.1)

/-- What the `k`-th call of `next` on an iterator returns; `none` is `StopIteration`. -/
abbrev Iter (A : Type) := ℕ → Option A

/-- What a call of `next` on a generator does. -/
inductive NextResult (A : Type)
  | yields (x : A)
  | stops
  | raises (e : Err)

/-- The generator `preprocess` (train_utils.py:209-227): the number of items taken from each iterator, and whether it has ended. -/
structure GenState where
  rng : ℕ := 0
  data : ℕ := 0
  ended : Bool := false

/-- One call of `next` on `preprocess(data_iterator, rng_stream, preprocess_fn)` (train_utils.py:224-227).  A `StopIteration` that
escapes from the body of a generator becomes a `RuntimeError` (PEP 479). -/
def preprocessNext {D R Y : Type} (data : Iter D) (rng : Iter R) (f : D → R → Except Err Y) (s : GenState) : NextResult Y × GenState :=
  if s.ended then (.stops, s)
  else
    match rng s.rng with
    | none => (.raises .runtime, ⟨s.rng, s.data, true⟩)
    | some r =>
      match data s.data with
      | none => (.raises .runtime, ⟨s.rng + 1, s.data, true⟩)
      | some x =>
        match f x r with
        | .error e => (.raises e, ⟨s.rng + 1, s.data + 1, true⟩)
        | .ok y => (.yields y, ⟨s.rng + 1, s.data + 1, false⟩)

/-- The `n`-th call of `next` (counted from 0) and the state after it. -/
def preprocessNth {D R Y : Type} (data : Iter D) (rng : Iter R) (f : D → R → Except Err Y) : ℕ → NextResult Y × GenState
  | 0 => preprocessNext data rng f {}
  | n + 1 => preprocessNext data rng f (preprocessNth data rng f n).2

/-- The time axis of batched trajectories. -/
def timeAxis : Fin (d + 2) := 1

/-- One leaf of `add_noise_to_input_frame` (train_utils.py:205-206): `x.at[:, 0, ...].add(scale * noise)`. -/
def addNoiseLeaf (scale : ℝ) (x : NArr (d + 2) ℝ) (noise : NArr (d + 1) ℝ) : Except Err (NArr (d + 2) ℝ) :=
  if x.shape timeAxis = 0 then .error .index
  else if (noise.shape = fun b => x.shape (timeAxis.succAbove b)) then
    .ok ⟨x.shape, fun i => if i timeAxis = 0 then x.data i + scale * noise.data (fun b => i (timeAxis.succAbove b)) else x.data i⟩
  else .error .type

/-- `add_noise_to_input_frame` (train_utils.py:180-206) for leaves of one rank.  `split` is `jax.random.split`, `normal` is
`jax.random.truncated_normal(key, -2., 2., shape)`. -/
def addNoiseToInputFrame {Key : Type} (split : Key → ℕ → List Key) (normal : Key → (Fin (d + 1) → ℕ) → NArr (d + 1) ℝ)
    (batch : List (NArr (d + 2) ℝ)) (rng : Key) (scale : ℝ) : Except Err (List (NArr (d + 2) ℝ)) :=
  if batch = [] then .error .value
  else if ∃ x ∈ batch, x.shape timeAxis = 0 then .error .index
  else (batch.zip (split rng batch.length)).mapM fun xk =>
    addNoiseLeaf scale xk.1 (normal xk.2 fun b => xk.1.shape (timeAxis.succAbove b))

end JaxCfd.Train
