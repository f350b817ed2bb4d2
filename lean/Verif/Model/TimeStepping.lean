import Verif.Model.Arr
import Mathlib.Algebra.Module.Defs

/-!
# `jax_cfd/base/time_stepping.py`, `jax_cfd/spectral/time_stepping.py`, `jax_cfd/base/funcutils.py`

States are elements of a module `V` over the scalars `K`: the vector arithmetic of `tree_math.Vector` on pytrees (all leaves of
one dtype, exact arithmetic).  Adding the Python integer 0 of an empty `sum` to a vector leaves it unchanged.
-/

namespace JaxCfd

section RK
variable {K V : Type} [Field K] [DecidableEq K] [AddCommGroup V] [Module K V]

/-- `ButcherTableau` (time_stepping.py:47-56). -/
structure Tableau (K : Type) where
  a : List (List K)
  b : List K

/-- `ButcherTableau.__post_init__` (time_stepping.py:54-56). -/
def mkTableau (a : List (List K)) (b : List K) : Except Err (Tableau K) :=
  if a.length + 1 ≠ b.length then .error .value else .ok ⟨a, b⟩

/-- `sum(row[j] * k[j] for j in range(len(k)) if row[j])` (time_stepping.py:97, 101): zero coefficients are skipped; a row shorter
than `k` is an IndexError. -/
def weightedSum : List K → List V → Except Err V
  | _, [] => .ok 0
  | [], _ :: _ => .error .index
  | c :: cs, k :: ks => do
      let s ← weightedSum cs ks
      return if c = 0 then s else c • k + s

/-- One pass of the stage loop of `navier_stokes_rk` (time_stepping.py:96-99), appending `k[i]`.  `F` and `P` may raise. -/
def rkStage (F P : V → Except Err V) (dt : K) (u0 : V) (ks : List V) (row : List K) : Except Err (List V) := do
  let s ← weightedSum row ks
  let u ← P (u0 + dt • s)
  let k ← F u
  return ks ++ [k]

/-- The step function returned by `navier_stokes_rk` (time_stepping.py:88-106).  The loop over `range(1, num_steps)` runs over the
rows of `a`, of which there are `num_steps - 1`. -/
def navierStokesRK (t : Tableau K) (F P : V → Except Err V) (dt : K) (u0 : V) : Except Err V := do
  let k0 ← F u0
  let ks ← t.a.foldlM (rkStage F P dt u0) [k0]
  let s ← weightedSum t.b ks
  P (u0 + dt • s)

/-- `forward_euler` (time_stepping.py:109-118). -/
def forwardEuler (F P : V → Except Err V) (dt : K) (u0 : V) : Except Err V := do
  let t ← mkTableau [] [1]
  navierStokesRK t F P dt u0

/-- `midpoint_rk2` (time_stepping.py:121-131). -/
def midpointRK2 (F P : V → Except Err V) (dt : K) (u0 : V) : Except Err V := do
  let t ← mkTableau [[1 / 2]] [0, 1]
  navierStokesRK t F P dt u0

/-- `heun_rk2` (time_stepping.py:134-144). -/
def heunRK2 (F P : V → Except Err V) (dt : K) (u0 : V) : Except Err V := do
  let t ← mkTableau [[1]] [1 / 2, 1 / 2]
  navierStokesRK t F P dt u0

/-- `classic_rk4` (time_stepping.py:147-158). -/
def classicRK4 (F P : V → Except Err V) (dt : K) (u0 : V) : Except Err V := do
  let t ← mkTableau [[1 / 2], [0, 1 / 2], [0, 0, 1]] [1 / 6, 1 / 3, 1 / 3, 1 / 6]
  navierStokesRK t F P dt u0

/-! ### Implicit-explicit schemes (`jax_cfd/spectral/time_stepping.py`)

`F` are the explicit terms, `G` the implicit terms and `Ginv x h` is `implicit_solve(x, h)`; here they are total functions. -/

/-- `backward_forward_euler` (spectral/time_stepping.py:54-78). -/
def backwardForwardEuler (F : V → V) (Ginv : V → K → V) (dt : K) (u0 : V) : V :=
  Ginv (u0 + dt • F u0) dt

/-- `crank_nicolson_rk2` (spectral/time_stepping.py:81-114). -/
def crankNicolsonRK2 (F G : V → V) (Ginv : V → K → V) (dt : K) (u0 : V) : V :=
  let g := u0 + (1 / 2 * dt) • G u0
  let h1 := F u0
  let u1 := Ginv (g + dt • h1) (1 / 2 * dt)
  let h2 := (1 / 2 : K) • (F u1 + h1)
  Ginv (g + dt • h2) (1 / 2 * dt)

/-- `xs[k]` of a Python list for `k ≥ 0`. -/
def item {α : Type} (l : List α) (k : ℕ) : Except Err α :=
  match l[k]? with
  | some x => .ok x
  | none => .error .index

/-- One pass of the loop of `low_storage_runge_kutta_crank_nicolson` (spectral/time_stepping.py:165-168) on `(h, u)`. -/
def lowStorageStage (alphas betas gammas : List K) (F G : V → V) (Ginv : V → K → V) (dt : K) (hu : V × V) (k : ℕ) :
    Except Err (V × V) := do
  let b ← item betas k
  let a1 ← item alphas (k + 1)
  let a0 ← item alphas k
  let c ← item gammas k
  let h := F hu.2 + b • hu.1
  let mu := 1 / 2 * dt * (a1 - a0)
  return (h, Ginv (hu.2 + (c * dt) • h + mu • G hu.2) mu)

/-- `low_storage_runge_kutta_crank_nicolson` (spectral/time_stepping.py:117-170).  The chained comparison of lines 159-160 raises
only if both `len(alphas) - 1 != len(betas)` and `len(betas) != len(gammas)`. -/
def lowStorageRKCN (alphas betas gammas : List K) (F G : V → V) (Ginv : V → K → V) (dt : K) (u : V) : Except Err V :=
  if (alphas.length : ℤ) - 1 ≠ betas.length ∧ betas.length ≠ gammas.length then .error .value
  else do
    let r ← (List.range betas.length).foldlM (lowStorageStage alphas betas gammas F G Ginv dt) (0, u)
    return r.2

/-- `crank_nicolson_rk3` (spectral/time_stepping.py:173-183). -/
def crankNicolsonRK3 (F G : V → V) (Ginv : V → K → V) (dt : K) (u : V) : Except Err V :=
  lowStorageRKCN [0, 1 / 3, 3 / 4, 1] [0, -5 / 9, -153 / 128] [1 / 3, 15 / 16, 8 / 15] F G Ginv dt u

/-- `crank_nicolson_rk4` (spectral/time_stepping.py:186-197), with the exact decimal coefficients. -/
def crankNicolsonRK4 (F G : V → V) (Ginv : V → K → V) (dt : K) (u : V) : Except Err V :=
  lowStorageRKCN
    [0, 1496590219993 / 10000000000000, 3704009573644 / 10000000000000, 6222557631345 / 10000000000000,
      9582821306748 / 10000000000000, 1]
    [0, -4178904745 / 10000000000, -1192151694643 / 1000000000000, -1697784692471 / 1000000000000,
      -1514183444257 / 1000000000000]
    [1496590219993 / 10000000000000, 3792103129999 / 10000000000000, 8229550293869 / 10000000000000,
      6994504559488 / 10000000000000, 1530572479681 / 10000000000000] F G Ginv dt u

/-- `ImExButcherTableau` (spectral/time_stepping.py:200-213). -/
structure ImExTableau (K : Type) where
  aEx : List (List K)
  aIm : List (List K)
  bEx : List K
  bIm : List K

/-- `ImExButcherTableau.__post_init__` (spectral/time_stepping.py:208-213). -/
def mkImExTableau (aEx aIm : List (List K)) (bEx bIm : List K) : Except Err (ImExTableau K) :=
  if aEx.length + 1 = aIm.length + 1 ∧ aEx.length + 1 = bEx.length ∧ aEx.length + 1 = bIm.length then
    .ok ⟨aEx, aIm, bEx, bIm⟩
  else .error .value

/-- `sum(row[j] * f[j] for j in range(len(f)) if row[j])` where `f[j]` may be `None` (spectral/time_stepping.py:244-245, 253-254):
using a `None` is a TypeError. -/
def weightedSumOpt : List K → List (Option V) → Except Err V
  | _, [] => .ok 0
  | [], _ :: _ => .error .index
  | c :: cs, k :: ks =>
      if c = 0 then weightedSumOpt cs ks
      else match k with
        | none => .error .type
        | some v => do
            let s ← weightedSumOpt cs ks
            return c • v + s

/-- `any(a[j][i] for j in range(i, num_steps - 1))` over the remaining rows (spectral/time_stepping.py:248, 250). -/
def anyCol (i : ℕ) : List (List K) → Except Err Bool
  | [] => .ok false
  | row :: rows => do
      let c ← item row i
      if c ≠ 0 then return true else anyCol i rows

/-- `any(...) or b[i]` guarding the evaluation of a stage (spectral/time_stepping.py:248-251). -/
def stageUsed (a : List (List K)) (b : List K) (i : ℕ) : Except Err Bool := do
  let x ← anyCol i (a.drop i)
  if x then return true
  else do
    let c ← item b i
    return decide (c ≠ 0)

/-- One pass of the stage loop of `imex_runge_kutta` (spectral/time_stepping.py:243-251). -/
def imexStage (t : ImExTableau K) (F G : V → V) (Ginv : V → K → V) (dt : K) (y0 : V) (fg : List (Option V) × List (Option V)) (i : ℕ) :
    Except Err (List (Option V) × List (Option V)) := do
  let rowE ← item t.aEx (i - 1)
  let ex ← weightedSumOpt rowE fg.1
  let rowI ← item t.aIm (i - 1)
  let im ← weightedSumOpt rowI fg.2
  let h ← item rowI i
  let Y := Ginv (y0 + dt • ex + dt • im) (dt * h)
  let useF ← stageUsed t.aEx t.bEx i
  let useG ← stageUsed t.aIm t.bIm i
  return (fg.1 ++ [if useF then some (F Y) else none], fg.2 ++ [if useG then some (G Y) else none])

/-- `imex_runge_kutta` (spectral/time_stepping.py:216-259). -/
def imexRK (t : ImExTableau K) (F G : V → V) (Ginv : V → K → V) (dt : K) (y0 : V) : Except Err V := do
  let fg ← (List.range' 1 (t.bEx.length - 1)).foldlM (imexStage t F G Ginv dt y0) ([some (F y0)], [some (G y0)])
  let ex ← weightedSumOpt t.bEx fg.1
  let im ← weightedSumOpt t.bIm fg.2
  return y0 + dt • ex + dt • im

/-- `imex_rk_sil3` (spectral/time_stepping.py:262-291). -/
def imexSIL3 (F G : V → V) (Ginv : V → K → V) (dt : K) (y0 : V) : Except Err V := do
  let t ← mkImExTableau [[1 / 3], [1 / 6, 1 / 2], [1 / 2, -1 / 2, 1]]
    [[1 / 6, 1 / 6], [1 / 3, 0, 1 / 3], [3 / 8, 0, 3 / 8, 1 / 4]] [1 / 2, -1 / 2, 1, 0] [3 / 8, 0, 3 / 8, 1 / 4]
  imexRK t F G Ginv dt y0

end RK

/-! ### `funcutils`

The functions are generic over the effects `m` of the stepped function (calls, exceptions, created parameters), to state how often it
is called.  Outside `init_context` `jax.lax.scan` traces its function; only the values it computes are modelled. -/

section Scan
variable {m : Type → Type} [Monad m] {C X Y : Type}

/-- `jax.lax.scan(f, init, xs)` (used at funcutils.py:79). -/
def laxScan (f : C → X → m (C × Y)) : C → List X → m (C × List Y)
  | c, [] => pure (c, [])
  | c, x :: xs => do
      let r ← f c x
      let s ← laxScan f r.1 xs
      return (s.1, r.2 :: s.2)

/-- `scan(f, init, xs=None, length)` (funcutils.py:65-79); `initializing` is the counter `_INITIALIZING`.  The stacked dummy output
(`_tree_stack`, funcutils.py:58-62) is the list of its entries. -/
def scanNone (initializing : ℕ) (f : C → Unit → m (C × Y)) (c : C) (length : ℕ) : m (C × List Y) :=
  if initializing ≠ 0 then do
    let r ← f c ()
    return (r.1, List.replicate length r.2)
  else laxScan f c (List.replicate length ())

/-- `repeated` (funcutils.py:82-88). -/
def repeated (initializing : ℕ) (f : C → m C) (steps : ℕ) (x : C) : m C := do
  let r ← scanNone initializing (fun c _ => do
    let c' ← f c
    return (c', ())) x steps
  return r.1

/-- `trajectory` (funcutils.py:95-126). -/
def trajectory (initializing : ℕ) (step : C → m C) (steps : ℕ) (post : C → m Y) (startWithInput : Bool) (x : C) : m (C × List Y) :=
  scanNone initializing (fun c _ => do
    let c' ← step c
    let y ← post (if startWithInput then c else c')
    return (c', y)) x steps

end Scan

/-- `init_context` (funcutils.py:40-55) around a body that may raise: the counter is incremented before and decremented after it. -/
def initContext {α σ : Type} (body : ℕ → σ → Except Err α × ℕ × σ) (n : ℕ) (s : σ) : Except Err α × ℕ × σ :=
  let r := body (n + 1) s
  (r.1, r.2.1 - 1, r.2.2)

end JaxCfd
