import Verif.Model.Boundaries
import Verif.Model.Seq

/-!
# Boundary condition constructors and decisions (`jax_cfd/base/boundaries.py:533-823`)

Simplification: types and values of a `BC d K` have one entry per axis by construction; the code does not
compare the length of `bc_vals` with `ndim`.
-/

namespace JaxCfd
variable {d : ℕ} {K : Type}

/-- `HomogeneousBoundaryConditions.__init__` (boundaries.py:548-552). -/
def homogeneousBC [Zero K] (types : Fin d → BCType × BCType) : BC d K :=
  ⟨.homogeneous, types, fun _ => (some 0, some 0)⟩

/-- `ConstantBoundaryConditions.__init__` (boundaries.py:63-68). -/
def constantBC (types : Fin d → BCType × BCType) (values : Fin d → Option K × Option K) : BC d K :=
  ⟨.constant, types, values⟩

/-- The common `if not bc_vals: Homogeneous else: Constant` (boundaries.py:576-581, 598-603, 625-628);
an empty sequence of values is only possible, and falsy, for rank 0. -/
def bcWithValues [Zero K] (types : Fin d → BCType × BCType)
    (vals : Option (Fin d → Option K × Option K)) : BC d K :=
  match vals with
  | none => homogeneousBC types
  | some v => constantBC types v

/-- `periodic_boundary_conditions` (boundaries.py:556-559). -/
def periodicBC [Zero K] (d : ℕ) : BC d K := homogeneousBC fun _ => (.periodic, .periodic)

/-- `dirichlet_boundary_conditions` (boundaries.py:562-581). -/
def dirichletBC [Zero K] (d : ℕ) (vals : Option (Fin d → Option K × Option K)) : BC d K :=
  bcWithValues (fun _ => (.dirichlet, .dirichlet)) vals

/-- `neumann_boundary_conditions` (boundaries.py:584-603). -/
def neumannBC [Zero K] (d : ℕ) (vals : Option (Fin d → Option K × Option K)) : BC d K :=
  bcWithValues (fun _ => (.neumann, .neumann)) vals

/-- The tuple of types built by `channel_flow_boundary_conditions` (boundaries.py:621-624): two entries
followed by one periodic entry per further dimension. -/
def channelTypes (ndim : ℕ) : List (BCType × BCType) :=
  [(.periodic, .periodic), (.dirichlet, .dirichlet)] ++
    List.replicate (ndim - 2) (.periodic, .periodic)

/-- `channel_flow_boundary_conditions` (boundaries.py:606-628), for at least two dimensions (for fewer the code
builds a condition with two entries, see `channelTypes`). -/
def channelBC [Zero K] (d : ℕ) (vals : Option (Fin d → Option K × Option K)) : BC d K :=
  bcWithValues (fun a => (channelTypes d).getD a (.periodic, .periodic)) vals

/-- `periodic_and_neumann_boundary_conditions` (boundaries.py:631-649). -/
def periodicAndNeumannBC [Zero K] (vals : Option (Option K × Option K)) : BC 2 K :=
  bcWithValues (fun a => if a = 0 then (.periodic, .periodic) else (.neumann, .neumann))
    (vals.map fun v a => if a = 0 then (none, none) else v)

/-- `periodic_and_dirichlet_boundary_conditions` (boundaries.py:652-678). -/
def periodicAndDirichletBC [Zero K] (vals : Option (Option K × Option K)) (periodicAxis : ℤ) : BC 2 K :=
  if periodicAxis = 0 then
    bcWithValues (fun a => if a = 0 then (.periodic, .periodic) else (.dirichlet, .dirichlet))
      (vals.map fun v a => if a = 0 then (none, none) else v)
  else
    bcWithValues (fun a => if a = 0 then (.dirichlet, .dirichlet) else (.periodic, .periodic))
      (vals.map fun v a => if a = 0 then v else (none, none))

/-- `is_periodic_boundary_conditions` (boundaries.py:681-685): looks at the lower side only. -/
def isPeriodicBC (c : GridVariable d K) (ax : Fin d) : Bool :=
  if (c.bc.types ax).1 ≠ .periodic then false else true

/-- `has_all_periodic_boundary_conditions` (boundaries.py:688-694): the two nested loops. -/
def hasAllPeriodic (arrays : List (GridVariable d K)) : Bool :=
  arrays.all fun a => (List.finRange d).all fun ax => isPeriodicBC a ax

/-- `consistent_boundary_conditions` (boundaries.py:697-721); `true` is 'periodic'.  With no arguments
`arrays[0]` is an IndexError. -/
def consistentBC (arrays : List (GridVariable d K)) : Except Err (Fin d → Bool) :=
  match arrays with
  | [] => .error .index
  | _ => seqFin fun ax => uniqueOr .bc (fun a => isPeriodicBC a ax) arrays

/-- `get_pressure_bc_from_velocity` (boundaries.py:724-735). -/
def pressureBCFromVelocity [Zero K] (v : List (GridVariable d K)) : Except Err (BC d K) := do
  let t ← consistentBC v
  return homogeneousBC fun a => if t a = true then (.periodic, .periodic) else (.neumann, .neumann)

/-- One side of the flux direction in `get_advection_flux_bc_from_velocity_and_scalar`
(boundaries.py:796-820).  `np.isclose(None, 0.0)` is a TypeError; `isclose` to 0 is equality with 0. -/
def fluxSide [Zero K] [DecidableEq K] (ut : BCType) (uv : Option K) (ct : BCType) (cv : Option K) :
    Except Err (BCType × Option K) :=
  if ut = .dirichlet ∧ uv = some 0 then .ok (.dirichlet, some 0)
  else if ut = .neumann ∧ ct = .neumann then
    match cv with
    | none => .error .type
    | some x => if x = 0 then .ok (.neumann, some 0) else .error .notImplemented
  else .error .notImplemented

/-- One axis of `get_advection_flux_bc_from_velocity_and_scalar` (boundaries.py:774-821). -/
def fluxAxis [Zero K] [DecidableEq K] (u c : GridVariable d K) (dir ax : Fin d) :
    Except Err ((BCType × BCType) × (Option K × Option K)) :=
  if (u.bc.types ax).1 = .periodic then .ok ((.periodic, .periodic), (none, none))
  else if dir ≠ ax then .ok ((.dirichlet, .dirichlet), (some 0, some 0))
  else do
    let lo ← fluxSide (u.bc.types ax).1 (u.bc.bcValues ax).1 (c.bc.types ax).1 (c.bc.bcValues ax).1
    let hi ← fluxSide (u.bc.types ax).2 (u.bc.bcValues ax).2 (c.bc.types ax).2 (c.bc.bcValues ax).2
    return ((lo.1, hi.1), (lo.2, hi.2))

/-- `get_advection_flux_bc_from_velocity_and_scalar` (boundaries.py:738-821). -/
def advectionFluxBC [Zero K] [DecidableEq K] (u c : GridVariable d K) (dir : Fin d) :
    Except Err (BC d K) :=
  if u.bc.cls ≠ .homogeneous then .error .notImplemented
  else do
    let r ← seqFin (fluxAxis u c dir)
    return constantBC (fun a => (r a).1) (fun a => (r a).2)

/-- `ConstantBoundaryConditions.values` (boundaries.py:441-460): constant arrays over the other axes, indices `[-0]` and `[-1]` of the pair. -/
def BC.values {d : ℕ} (bc : BC (d + 1) K) (ax : Fin (d + 1)) (g : Grid (d + 1) K) : Option (NArr d K) × Option (NArr d K) :=
  let full := fun x : K => (⟨fun b => g.shape (ax.succAbove b), fun _ => x⟩ : NArr d K)
  if (bc.bcValues ax).1.isNone = true ∨ (bc.bcValues ax).2.isNone = true then (none, none)
  else ((bc.bcValues ax).1.map full, (bc.bcValues ax).2.map full)

end JaxCfd
