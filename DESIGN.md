# Formal model of google/jax-cfd in Lean 4

Contents: 1 scope and layout · 2 trusted base and axioms · 3 modelling decisions · 4 what is modelled, what is not ·
5 per property: model, method, limits · 6 findings (places where the English property is false of the code) ·
7 testing the theorems.

## 1. Scope and layout

The model is a function-by-function transcription of `/repo/jax_cfd` into Lean 4. It is executable mathematics, not an
extraction: each Python function becomes a Lean function into `Except Err _`, and its comment cites file and lines.

* `lean/Verif/Model/*` – the model of the code; nothing else is in there.
* `lean/Verif/Spec*.lean` – the vocabulary of the statements (what "divergence free", "periodic neighbour", "exact solver",
  "translated", "relabelled" … mean), written without reference to the model's helpers where possible.
* `lean/Verif/Lemmas/*` – helper lemmas.
* `lean/Verif/Props/*` – the property theorems `CNN_…`, with `example`s beside them that instantiate the hypotheses on
  concrete, non-trivial data.

## 2. Trusted base

* Lean 4.33.0's kernel, and Mathlib as installed.
* Axioms. `#print axioms` on every theorem of `MANIFEST.json` prints a subset of
  `propext`, `Classical.choice`, `Quot.sound`; none prints anything else. (At the time of writing about 95 % depend on all
  three, about 5 % on `propext` and `Quot.sound` only, a handful on `propext` only.) No axiom is added, no compiled-code
  tactic is used.
* The reading of the Python source recorded in the citations: that each definition of `Model/*` says what the cited lines do,
  under the decisions of section 3. This is not checked by the kernel.
* The documented meaning of the library calls the code makes (NumPy, JAX, Haiku, SciPy, xarray), as written in the model.

## 3. Modelling decisions

* **Scalars.** Floating point is replaced by exact arithmetic in a field `K` of characteristic 0 (ordered where bounds occur;
  `ℝ`/`ℂ` where roots, exponentials or complex numbers occur). Rounding, overflow, NaN propagation and dtype promotion are
  not modelled. Offsets are rationals, `np.isclose` on offsets is equality, `x % 1` is `Int.fract`.
* **Arrays.** A shape `Fin d → ℕ` and a data function on integer indices, meaningful only inside the shape; statements speak
  of in-range indices only. `d` is arbitrary unless the code fixes it. `jnp.pad`, `slice`, `roll`, `reshape`, block
  reductions, convolutions and FFTs are defined index by index (FFTs and convolutions by their defining sums).
  Broadcasting between different shapes is not modelled (it is the error `type`), except length-1 broadcasting in 1-D spectra.
* **Errors** are values of `Err` (value, type, notImplemented, index, zeroDivision, key, assertion, runtime, offset, grid, bc).
* **`None` boundary values** become `nan`, an arbitrary unconstrained scalar: theorems hold for every choice of it.
* **External code** – `eigh`, `cg` (modelled for C69, a parameter elsewhere), `svd`, `solve`, PRNG, networks, optimizers – is a parameter. What is assumed of it is a
  hypothesis of the theorem that uses it, and is shown to be satisfiable.
* **Pytrees** are lists of leaves with a structure carried along; C06 models flatten/unflatten themselves.
  Dictionaries are association lists in insertion order, iterators are `ℕ → Option`.
* **Time steppers** are over an arbitrary module of states, or over states with a layout when the state contains grid variables.
* **Trajectories of ML models** are lists of arrays with time axis 0; `hk.scan` is `lax.scan` plus one traced call that fixes the
  shapes; `hk.remat`, `hk.to_module`, named calls and parameter bookkeeping are ignored; the weights of a layer are arbitrary.
* **Learned interpolation**: towers are arbitrary functions of the channels; `fuse_spatial_derivative_layers` only with
  `constrain_with_conv=False`.
* **Collocated and eddy-viscosity solvers**: `cg` is a parameter that rejects an initial guess of another structure or shape.
* **xarray** objects have spatial dimensions only (other dimensions are mapped over); `xarray.interp` is a parameter.
* **map_coordinates** is JAX's definition (order 0 and 1); mode `mirror` with a single point is excluded.
* Integer indexing out of range is IndexError (traced JAX would clamp); `int(2/3*k)` is the exact floor; ratios of grid steps are
  exact.

## 4. What is modelled, and what is not

Modelled (file → model modules):

| code | model |
|------|-------|
| `base/grids.py` | Arr, Grids, GridCtor, Pytree |
| `base/boundaries.py` | Boundaries, BCUtils |
| `base/finite_differences.py` | FiniteDifferences |
| `base/interpolation.py` | Interpolation, PointInterpolation |
| `base/advection.py`, `base/diffusion.py`, `base/pressure.py` | Advection, Diffusion, Pressure, Solvers, ConjugateGradient |
| `base/array_utils.py`, `base/fast_diagonalization.py` | ArrayUtils, Reshape, Interp1d, GramSchmidt, LaplacianMatrix, FastDiag |
| `base/time_stepping.py`, `base/funcutils.py`, `base/equations.py` | TimeStepping, Equations |
| `base/forcings.py`, `base/filter_utils.py`, `base/initial_conditions.py`, `base/validation_problems.py` | Forcings, SpectralUtils |
| `base/resize.py`, `base/subgrid_models.py` | Resize, TopHat, Subgrid |
| `spectral/*` | SpectralUtils, SpectralEquations, SpectralForcings, TimeStepping |
| `collocated/*` | Collocated |
| `ml/tiling.py`, `ml/layers.py`, `ml/layers_util.py` | Tiling, PeriodicConv, Patches, Polynomial, SpatialDerivative |
| `ml/towers.py`, `ml/networks.py`, `ml/interpolations.py`, `ml/advections.py`, `ml/equations.py` | Towers, Networks, LearnedInterpolation, MLInterpolation |
| `ml/encoders.py`, `ml/decoders.py`, `ml/model_builder.py`, `ml/model_utils.py`, `ml/time_integrators.py` | Encoders, ModelUtils |
| `ml/forcings.py`, `ml/viscosities.py`, `ml/metrics.py`, `ml/train_utils.py` | Forcings, SpectralForcings, Subgrid, Viscosities, Metrics, Reductions, TrainUtils |
| `data/xarray_utils.py`, `data/evaluation.py` | Evaluation |

Not modelled: floating-point rounding and dtypes; `jit`, sharding, precision arguments, gradients (`jax.grad`), gin
configuration, `__repr__`/`__eq__` by identity, abstract base classes (only their implementations), the parameter
initialisers of Haiku modules, optimizers, `data/visualization.py` (images), `data/xarray_utils.py` I/O (zarr, dask),
`data/evaluation.py:compute_summary_dataset` and `approximate_quantiles` (drivers over xarray), `base/test_util.py`,
`constrain_with_conv=True` in `fuse_spatial_derivative_layers`, and the body of every external routine named in section 3.
`cupy`/`numpy` alternatives selected by environment are treated as the JAX ones.

## 5. Per property: model, method, limits

Every theorem named `CNN_…` is in the module(s) `Props/…` listed; `MANIFEST.json` lists the exact names.

* **C01 Grid construction keeps step*shape = domain length** (3 theorems; Props: Grids; Model: GridCtor). Case analysis over the argument combinations of the constructor; a success criterion (iff), the error kinds, and the invariant of every grid returned. Grid of size 0 along an axis raises ZeroDivisionError only where the step is used.
* **C02 Grid.axes / mesh points** (8 theorems; Props: Grids; Model: Grids, GridCtor). List computation; ordered-field inequalities.
* **C03 GridArray arithmetic never mixes offsets or grids** (2 theorems; Props: Grids; Model: Grids). `__array_ufunc__` and `applied` as one function of a list of operands; iff for success, priority of the errors. Broadcasting inside the ufunc is not modelled.
* **C04 consistent_offset / consistent_grid / unique_boundary_conditions decide uniqueness** (2 theorems; Props: Grids; Model: Grids). List reasoning: success iff the list is nonempty and constant; invariance under equal sets of arguments.
* **C05 Offset bookkeeping of faces, averages and differences** (3 theorems; Props: FD, Grids; Model: Grids, FiniteDifferences). Rational arithmetic on offsets, tied to the outputs of the difference operators.
* **C06 Pytree flatten/unflatten is lossless** (12 theorems; Props: Grids, Pytree; Model: Pytree, GridCtor). Pytrees as an inductive type with the three registered nodes; structural induction.
* **C07 Periodic shift is a cyclic roll** (4 theorems; Props: Shift; Model: Boundaries). `roll` as `Int.emod` index algebra; all integers k, all axes.
* **C08 shift preserves shape and moves the offset** (2 theorems; Props: Shift; Model: Boundaries). Case analysis over `_pad`/`_trim` for every boundary type and mode; the exception (array beyond the upper wall) is proved to be real.
* **C09 Dirichlet cell-centred ghost cells average to the boundary value** (4 theorems; Props: Ghost; Model: Boundaries). `jnp.pad` modes index by index; any width for MIRROR.
* **C10 Dirichlet edge-aligned padding places the boundary value on the wall** (5 theorems; Props: Ghost; Model: Boundaries). As C09; the failure of odd reflection for a non-zero wall value is proved.
* **C11 Neumann ghost cells reproduce the prescribed normal derivative** (5 theorems; Props: Ghost; Model: Boundaries). As C09; wider paddings are characterised exactly (they are not the linear extrapolation).
* **C12 impose_bc makes boundary entries equal to the boundary condition, only those, idempotently** (4 theorems; Props: Impose, MLInterpolation; Model: Boundaries, MLInterpolation). Fold over axes with an invariant; idempotence from the characterisation.
* **C13 pad then trim is the identity; pad sizes** (5 theorems; Props: PadTrim; Model: Boundaries). Index algebra for every boundary type, sign and pair of widths.
* **C14 trim_boundary keeps exactly the interior points** (2 theorems; Props: Impose; Model: Boundaries). The kept entries are characterised by position; idempotence follows.
* **C15 Boundary-condition decision logic** (9 theorems; Props: BCUtils; Model: BCUtils). Lists of type pairs; iff for the consistency check.
* **C16 Advection flux boundary condition is granted only in the supported cases** (1 theorems; Props: BCUtils; Model: BCUtils). Exhaustive characterisation (iff) of acceptance and of the result.
* **C17 Periodic differences telescope (discrete divergence theorem)** (3 theorems; Props: FD; Model: FiniteDifferences). Re-indexing finite sums by the cyclic shift; any dimension.
* **C18 Laplacian = divergence of gradient, symmetric, dissipative** (4 theorems; Props: FD; Model: FiniteDifferences). Summation by parts; kernel by connectivity of the torus.
* **C19 curl of gradient and divergence of curl vanish** (5 theorems; Props: FD; Model: FiniteDifferences). Commuting rolls.
* **C20 Difference operators are linear, exact on affine data away from the seam** (7 theorems; Props: FD, GradientTensor; Model: FiniteDifferences). Stencil formulas for every axis, then field algebra; gradient tensor in all dimensions, with the corner-data defect.
* **C21 Summation by parts** (2 theorems; Props: FD; Model: FiniteDifferences). Re-indexing of sums.
* **C22 Neumann and Dirichlet Laplacians respect the boundary conditions** (6 theorems; Props: Wall; Model: FiniteDifferences, Boundaries). One-dimensional stencils with ghost cells, telescoping; any mixture of periodic and wall axes, any dimension.
* **C23 Linear interpolation** (7 theorems; Props: Interp; Model: Interpolation). Fold over axes; weights in [0,1]; bounds by convexity.
* **C24 Upwind interpolation picks the upstream value** (3 theorems; Props: Interp; Model: Interpolation). Pointwise case split on the sign of the velocity.
* **C25 Lax-Wendroff and limiter interpolation** (3 theorems; Props: Interp; Model: Interpolation). Field algebra and order reasoning on the limiter.
* **C26 Limited interpolation stays between neighbouring values** (2 theorems; Props: Interp, MLInterpolation; Model: Interpolation, MLInterpolation). Convex combination with the Courant number bounded by 1.
* **C27 Advection conserves the scalar whatever the interpolation** (9 theorems; Props: Advection, VanLeer, VanLeerDefects; Model: Advection). Telescoping fluxes; the interpolation is an arbitrary function that keeps periodic variables; then each scheme of the code is shown to be one.
* **C28 Advection of a constant by a divergence-free flow is zero** (1 theorems; Props: Advection; Model: Advection). Algebra from the face-flux form.
* **C29 Centred advection conserves energy** (1 theorems; Props: Advection; Model: Advection). Summation by parts.
* **C30 Upwind advection obeys the maximum principle under CFL** (1 theorems; Props: Advection; Model: Advection). Convex combination per cell.
* **C31 Stable time steps** (10 theorems; Props: TimeStep; Model: Advection, Diffusion, Equations). Order reasoning; energy estimate for the L2 statement; a counterexample where the maximum principle fails (cell-centred Dirichlet walls).
* **C32 Semi-Lagrangian advection obeys the maximum principle** (5 theorems; Props: SemiLagrangian; Model: Advection). `map_coordinates` weights are nonnegative and sum to one.
* **C33 Pressure projection** (7 theorems; Props: Pressure, TranslationProjection; Model: Pressure). The solver is a parameter: residual identity for every solver, exactness for exact ones; energy identity by adjointness. `solver_independent`: two exact solvers give the same velocity.
* **C34 Laplacian matrices agree with the finite-difference stencil** (4 theorems; Props: LaplacianMatrix; Model: LaplacianMatrix). Matrix entries by index arithmetic; sizes 0, 1 and 2 treated exactly as the code does.
* **C35 Fast diagonalization applies f of the Kronecker sum** (8 theorems; Props: FastDiag; Model: FastDiag). Tensor-product linear algebra over an arbitrary list of eigendecompositions; polynomials through all sums of eigenvalues.
* **C36 Fast-diagonalization solvers solve the discrete equations** (13 theorems; Props: DiffusionLayout, DiffusionSolve, PressureSolve; Model: Solvers, FastDiag, LaplacianMatrix). C34 + C35 + boundary values moved to the right-hand side; `eigh`/FFT are hypothesised exact.
* **C37 Implementation selection and argument checks of transforms** (5 theorems; Props: FastDiag; Model: FastDiag). Decision table, iff.
* **C38 Projected Runge-Kutta time steppers** (12 theorems; Props: TimeStepping; Model: TimeStepping). Induction over stages for an arbitrary tableau; closed forms of the named ones.
* **C39 IMEX time steppers** (14 theorems; Props: Imex, ImexSchemes; Model: TimeStepping). As C38 for IMEX tableaux; stability by complex-norm estimates.
* **C40 repeated / trajectory / scan composition laws** (11 theorems; Props: FuncUtils; Model: TimeStepping (funcutils part)). Induction on the number of steps; `init_context` as a mode of `scan`, nested to any depth.
* **C41 Array slicing, splitting and concatenation round-trip** (7 theorems; Props: ArrayUtils; Model: ArrayUtils). Index algebra for every axis, including negative ones.
* **C42 block_reduce partitions the array** (3 theorems; Props: ArrayUtils; Model: ArrayUtils, Reshape). Row-major reshape arithmetic; sum re-indexing.
* **C43 1-d interpolation** (7 theorems; Props: Interp1d; Model: Interp1d). `searchsorted`/`argsort` by specification; order reasoning.
* **C44 gram_schmidt_qr factorizes** (3 theorems; Props: GramSchmidt; Model: GramSchmidt). Induction over columns.
* **C45 Downsampling a staggered velocity preserves divergence** (6 theorems; Props: Resize; Model: Resize). Block sums; telescoping of fluxes through fine faces.
* **C46 Spectral downsampling and Fourier padding** (15 theorems; Props: SpectralNS, SpectralUtils, SpectralVelocity; Model: SpectralUtils, Resize). Discrete Fourier analysis from the defining sums (orthogonality of characters).
* **C47 vorticity_to_velocity inverts the curl** (4 theorems; Props: SpectralVelocity; Model: SpectralUtils). Mode-by-mode complex algebra.
* **C48 Spectral equations: implicit solve is the exact inverse of the implicit term** (17 theorems; Props: SpectralEquations, SpectralNS; Model: SpectralEquations). Mode-by-mode algebra; conservation laws through Parseval and exact de-aliasing.
* **C49 Forcings and spectral filters** (20 theorems; Props: Filters, Forcings, TaylorGreen; Model: Forcings, SpectralUtils). Closed forms on meshes; trigonometric identities for the discrete divergence; filters through the FFT.
* **C50 Tiling and padding of periodic convolutions is invisible** (16 theorems; Props: PeriodicConv, Tiling; Model: Tiling, PeriodicConv). Index algebra mod n; equality with the untiled computation for every tile layout.
* **C51 Stencils and patches** (11 theorems; Props: Patches, SpatialDerivative; Model: Patches, SpatialDerivative). Index algebra; two implementations proved equal.
* **C52 Learned derivative stencils are polynomially accurate whatever the network says** (22 theorems; Props: FusedDerivative, Polynomial, SpatialDerivative; Model: Polynomial, SpatialDerivative). Multivariate monomials; constraints ⇔ exactness on all polynomials below the order; SVD null space as a hypothesis.
* **C53 streaming_mean and training-loop bookkeeping** (9 theorems; Props: TrainUtils; Model: TrainUtils). Induction over the stream of batches.
* **C54 Error metrics are metrics** (11 theorems; Props: Metrics; Model: Metrics). Finite sums, Cauchy–Schwarz.
* **C55 Collocated schemes** (20 theorems; Props: Collocated, CollocatedProjection, CollocatedStep; Model: Collocated). As C17–C33 on the collocated stencils; exact `cg` as a hypothesis.
* **C56 Navier-Stokes steps** (28 theorems; Props: ConvectWalls, Equations, ForcedTrajectory, ImplicitNS, NavierStokes, WallStep; Model: Equations, TimeStepping, Diffusion, Advection, Pressure). Corollaries of C27–C38 for whole steps and trajectories, with the default arguments; wall defects by explicit counterexamples.
* **C57 Initial conditions** (4 theorems; Props: InitialConditions; Model: Forcings (initial conditions)). The noise is arbitrary; projection and scaling lemmas.
* **C58 Taylor-Green validation problem** (6 theorems; Props: TaylorGreen; Model: Equations (TaylorGreen)). Real analysis (derivatives) for the continuous solution, trigonometry for the discrete one.
* **C59 Eddy viscosity (Smagorinsky) models** (24 theorems; Props: Subgrid, SubgridStep, Viscosities; Model: Subgrid, Viscosities). Symmetric tensors, summation by parts; learned viscosities as parameters.
* **C60 Model rollouts, training trajectories and the explicit Euler integrator** (9 theorems; Props: ModelUtils; Model: ModelUtils). Induction over scans.
* **C61 Encoders and decoders** (21 theorems; Props: Encoders; Model: Encoders). Composition of the modelled pieces; FFT round trips.
* **C62 Correction networks and learned correctors** (9 theorems; Props: Networks; Model: Networks). Telescoping of the learned flux.
* **C63 Learned interpolation and the modular Navier-Stokes model** (13 theorems; Props: LearnedAdvection, LearnedInterpolation; Model: LearnedInterpolation). C52 applied to the interpolation network; conservation by C27.
* **C64 Spectral time stepping, exponential filter and spectral forcings** (18 theorems; Props: Circulation, ExponentialFilter, RandomForcing, SpectralScheme, VorticityForcing; Model: SpectralForcings, SpectralEquations). C48 iterated over the scheme and over steps.
* **C65 Datasets: conversion, spectra, correlations and summary metrics** (29 theorems; Props: Correlation, DatasetMetrics, Isotropic, Spectrum; Model: Evaluation). Finite sums, Cauchy–Schwarz, Parseval.
* **C66 Point interpolation** (13 theorems; Props: PointInterpolation, PointLinear; Model: PointInterpolation). Weights of `map_coordinates`.
* **C67 Convolutional towers** (27 theorems; Props: MirrorConv, ResidualTowers, Towers; Model: Towers, PeriodicConv). Equivariance closed under composition; receptive fields by induction over layers.
* **C68 Translation equivariance of the periodic solver** (28 theorems; Props: Translation, TranslationAdvection, TranslationSemiLagrangian, TranslationSteps, TranslationTrajectory; Model: all of the finite-volume model). A relational (logical-relations) argument: every model function maps translated inputs to translated outputs or fails alike.
* **C69 Conjugate gradient solvers for pressure and diffusion** (16 theorems; Props: ConjugateGradient, MLSolvers; Model: ConjugateGradient, Pressure, Solvers). The algorithm of `jax.scipy.sparse.linalg.cg` is modelled in exact arithmetic; the discrete operators are shown symmetric and semidefinite with the right-hand side orthogonal to the kernel, and the iteration terminates by orthogonality of the residuals. Rounding is not modelled: in floating point the method may need more iterations.
* **C70 Top-hat downsampling** (10 theorems; Props: TopHat, TopHatExamples, TopHatWalls; Model: TopHat, Interpolation, Boundaries). Moving average and strided slice are modelled as array operations; the padding by half a filter on both sides is shown to continue the field (SpecTopHat.continued), the subsampling to start every window where SpecTopHat.WindowAt says, and the axes are composed by induction. Along walls the variable must be cell-centered after the initial interpolation (always the case for filtered axes) and the initial interpolation must succeed. Filter sizes are natural numbers. Factor 1 with a larger filter at the cell centers is excluded from the positive theorems and recorded as C70_factor_one_defect.
* **C71 Batch reductions of metrics** (7 theorems; Props: Reductions; Model: Reductions, Metrics). vmap, stacking, sums along an axis and the collectives are modelled as array operations; permutation and sharding by reindexing finite sums. Keyword arguments of metrics (mapped over axis 0) and empty batches are not modelled; devices hold equal shares.
* **C72 No axis is special: relabelling the axes relabels the result** (32 theorems; Props: Permutation, PermutationAdvection, PermutationSteps, PermutationTrajectory, PermutationWalls, VanLeerDefects; Model: all of the finite-volume model). A relational argument as for C68, with a permutation of the axes; sums over axes are reindexed, linear interpolation is shown not to depend on the order in which the axes are interpolated. Error values need not coincide (the first failing axis differs), so the relation speaks about successful runs in both directions. With Dirichlet or Neumann walls: differences, Laplacian, diffusion, divergence and projection, from the values above and below a cell (Lemmas of C21/C33); interpolation, advection and whole steps at walls are not covered, nor is advect_van_leer.
* **C73 The stencils approximate the derivatives they are named after, at the place they are labelled with** (18 theorems; Props: Accuracy, AccuracyAdvection, AccuracyConvection, AccuracyInterp, AccuracyVanLeer, AccuracyWalls, FluidConvergence; Model: FiniteDifferences, Interpolation, Advection, Diffusion; smooth functions in SpecSmooth). Taylor's formula with Lagrange remainder (Mathlib) on the line through a grid point, with the periodic stencils rewritten as values of the function at neighbouring positions; the van Leer limiter is shown to be Lipschitz continuous in the two differences it compares (Lemmas/Limiter). Exact arithmetic, so rounding errors are outside the model. Periodic grids; between walls the Laplacian and the divergence (C73_wall_*), with the error beyond each kind of wall; interpolation and advection at walls are not covered, and that the error at Dirichlet walls does not spoil the order of solutions is not proved. Instantiated by a plane wave on the torus in every dimension and resolution.
* **C74 Simulations converge to the solution of the differential equation** (7 theorems; Props: Convergence, ConvergenceAdvection, ConvergenceImplicit, ConvergenceSemiLagrangian, ConvergenceWalls, ConvergenceWallsImplicit; Model: Diffusion, Advection, DiffusionSolve; smooth functions in SpecSmooth). Lax equivalence in the maximum norm: consistency from C73, stability from the maximum principles C30, C31 and C36, induction on the number of steps. The solution of the PDE is given by hypotheses (its time derivative equals the spatial operator); existence of solutions is not proved, but a decaying and a travelling wave are shown to satisfy all hypotheses. Between walls the O(1) defect of the Laplacian at Dirichlet walls is absorbed by the additional damping of the error there (`C74_wall_diffusion`, `C74_wall_implicit_diffusion`); Neumann walls are bounded to first order. Advection on periodic grids; the incompressible Navier-Stokes solver is not covered.
* **C75 Order of convergence of the time steppers** (10 theorems; Props: ImexConvergence, ImexOrder, RK4Convergence, Sil3Order, TimeConvergence; Model: TimeStepping; vocabulary in SpecODE). Taylor expansion of the solution with explicit remainders, stability of one step in a tube around the solution, discrete Gronwall by induction on the number of steps; fourth order of classic_rk4 by an order calculus (Lemmas/Order). The IMEX theorems use the resolvent and Cayley contractions of a dissipative operator, so the stiffness does not enter; for general tableaux (imex_runge_kutta, imex_rk_sil3, crank_nicolson_rk3) the defects of the solution in the stage equations are estimated and the constants depend on the norm of the implicit operator. crank_nicolson_rk4 is not covered: its rounded coefficients are not exactly consistent (C39_rk4_coefficients). Exact arithmetic; the right hand sides are total functions; existence of the solution is a hypothesis (met by the examples).
* **C76 The projection method converges to the solution of the Navier-Stokes equations** (9 theorems; Props: FluidAccuracy, FluidConvergence, FluidLimit, ImplicitConvergence; Model: Equations, Advection, Pressure, Diffusion, TimeStepping; vocabulary in SpecFluid). Energy method: convection by a discretely divergence-free velocity is skew-symmetric and bounded by the discrete gradient (Lemmas/DiscreteConvection), so under the step restriction the explicit step does not increase the norm of a divergence-free error (Lemmas/FluidStep); the exact solution is compared through its discrete projection, which a discrete Poincare inequality (Lemmas/BoxPoincare) keeps near it; the truncation error comes from C73; discrete Gronwall by induction on the number of steps. Periodic grids, convect_linear only (the default van Leer convection is limited and not linear), forward Euler, exact arithmetic, exact pressure solver (C36/C56_default_solver and C69_exact_solver provide them). Existence of the smooth solution is a hypothesis. Instantiated by a decaying wave on a stream in two dimensions for every resolution and number of steps. implicit_diffusion_navier_stokes (C76_implicit_diffusion, C76_implicit_a_priori, C76_implicit_run_exists): the diffusion solve is stable from the plain norm to the energy norm, which absorbs the explicit convection when dt d U^2 <= 2 nu, so there is no diffusive step restriction; the limit equation has kinematic viscosity `viscosity` whatever the density (finding: the density is ignored). C76_uniform and C76_implicit_uniform: limits along refinements, with a sequence of grids of the torus as instance.
* **C77 No hidden units** (40 theorems; Props: Units, UnitsAdvection, UnitsCutoff, UnitsForcings, UnitsSemiLagrangian, UnitsSteps; Model: Grids, Boundaries, FiniteDifferences, Interpolation, Advection, Diffusion, Pressure, Equations, Forcings, Subgrid, FastDiag, TimeStepping; vocabulary in SpecUnits). Relational proofs: every function maps inputs related by the change of units to related outputs (and succeeds whenever the original does), composed along the monadic structure of the model. For the projection the scaled pressure is an exact solution of the scaled problem and solutions are unique up to the constant. A Gershgorin bound on the eigenvalues gives the failure for a large cutoff. Sides that are not periodic must have a boundary value. Not covariant (proved or recorded): the absolute cutoff of `pseudoinverse` (C77_cutoff_hidden_unit), the explicit Smagorinsky model divides an acceleration by the density (C77_smagorinsky_density), implicit diffusion ignores the density (C56_implicit_ignores_density), the Taylor-Green forcing ignores the domain (C49_taylor_green_defect). Rounding and the dtype-dependent value of the cutoff are outside the model.
* **C78 Reflection symmetry** (27 theorems; Props: Mirror, MirrorSemiLagrangian, MirrorSteps, MirrorWalls; Model: FiniteDifferences, Interpolation, Advection, Diffusion, Pressure, Equations, Forcings, TimeStepping, Funcutils; vocabulary in SpecMirror). Relational proofs as for C77: a mirrored pair of inputs gives a mirrored pair of results or the same exception. The limited interpolation is not itself equivariant (at zero velocity the upwind side is chosen arbitrarily) but the flux velocity * interpolated value is, which is what is proved. For the semi-Lagrangian step the departure cells on the two sides are found by rounding in different directions; the multilinear interpolant is shown not to notice. For the projection and the implicit diffusion the mirrored solution solves the mirrored problem and solutions are unique. C78_mirror_position ties the index reflection to the positions of the grid. With walls (C78_wall_*): stencils, diffusion, divergence and projection, for mirrors normal to a walled axis, in the middle of the box; every flow is shown to have a mirror image; interpolation, advection and steps with walls are not covered. The collocated and spectral solvers are not covered; the mirror passes through the lower corner of the domain; Kolmogorov forcing is invariant under no single reflection, so the statements about steps relate two forcings; its wave must fit the domain and have a node at the lower corner.

## 6. Findings

Where the English property is false of the code, the property states what the code does and a theorem proves the failure
(named in parentheses). Observations without a theorem name are from reading only.

1. `laplacian_matrix(2, step)` is not the periodic stencil (C34_size_two_defect); sizes ≤ 1 raise IndexError (C34_periodic).
2. `low_storage_runge_kutta_crank_nicolson`: the chained length check misses single mismatches (C39_length_check_defect).
3. `scan` inside `init_context` calls `f` once even for length 0 (C40_init_repeated).
4. `truncated_rfft ∘ padded_irfft` restores the size only for odd rfft length (C46_even_size_defect), so Kuramoto–Sivashinsky and
   Burgers fail for N ≡ 2 mod 4 (C48_ks_size_defect).
5. `correlation_single_step` reduces over the wrong axes (C54_correlation_axes_defect, C54_correlation_batch_defect); the L2 losses
   silently ignore unmatched components (C54_extra_components_ignored).
6. `_pad` MIRROR, edge-aligned, total padding > 1 uses `bc_values` (None → TypeError) instead of the homogeneous values.
7. `_is_aligned` rejects a Neumann edge only on the lower side; (Dirichlet, Neumann) edge data fails later in `_pad`. It adds one for
   each Dirichlet side at offset 1, so an array with N−2 points passes.
8. `downsample_staggered_velocity` uses `step[0]` for every axis (C45_anisotropic_defect); `advect_van_leer` uses a leaked loop variable, which
   makes the last axis special for data that is not at the cell centres (C72_van_leer_axis_defect).
9. `NavierStokes2D(smooth=False)` still filters (C48_ns_smooth_false_defect).
10. MIRROR padding of wall-aligned Dirichlet data with b ≠ 0 gives `b − u` (C10_mirror_not_odd); wide Neumann padding repeats `step·g`
    (C11_neumann_wide_*).
11. Arrays beyond the upper wall change shape under `shift` (C08_far_offset_changes_shape).
12. `channel_flow_boundary_conditions(ndim < 2)` yields two entries (C15_channel_length).
13. `upwind`/`lax_wendroff` use `u.offset − c.offset` for the data but label the result with the requested offset.
14. `divergence(curl_3d(v))` always raises (C19_divergence_of_curl3d_rejected); `gradient_tensor` of corner data is not centred
    (C20_gradient_tensor_corner).
15. `implicit_diffusion_navier_stokes` ignores the density in the diffusion solve (C56_implicit_ignores_density).
16. `diffusion.stable_time_step` gives no maximum principle at cell-centred Dirichlet walls
    (C31_dirichlet_cells_no_maximum_principle), only L2 stability.
17. `diffusion._subtract_linear_part_dirichlet` is right only for axis 1 of a 2-D grid (C36_diffusion_axis0_defect).
18. `_hermitian_matmul_transform` uses Vᵀ for V* (C35_complex_hermitian_defect); `rfft` never checks the shape of its argument
    (C37_rfft_shape_unchecked); the default cutoff of `pseudoinverse` is absolute, so in a small
    enough unit of length the default projection leaves every velocity as it is (C77_cutoff_hidden_unit).
19. For non-periodic velocities the requested `implementation` is silently replaced by `matmul`. With net flow through Dirichlet walls the
    projection leaves the mean divergence (C36_projection_default).
20. `crank_nicolson_rk4` decimals fix steady states to 1e-12 only (C39_rk4_coefficients).
21. `interp1d(assume_sorted=False)` re-indexes before the size check (C43_unsorted_size_unchecked).
22. `downsample_spectral` picks mismatched modes for odd sizes (C46_downsample_spectral_odd_defect).
23. Kuramoto–Sivashinsky `implicit_solve` divides by zero for some dt ≥ 4 (C48_ks_singular).
24. Taylor–Green decay ignores the wavenumbers (C58_exact_solution); `taylor_green_forcing` ignores the domain
    (C49_taylor_green_defect); `vorticity_space_forcing` with a linear coefficient always raises (C64_linear_coefficient_defect).
25. Steps with Dirichlet walls do not re-impose the wall values before projecting (C33_unimposed_walls, C56_wall_residual,
    C56_wall_tendency_defect, C56_vortex_defect); default convection refuses walls (C56_default_convection_needs_periodic).
26. Halo exchange and periodic convolutions refuse inputs smaller than the padding (C50_halo_too_wide, C50_conv_transpose_rejects).
27. `polynomial_accuracy_constraints` may have more rows than columns (C52_negative_subspace_defect).
28. `SpatialDerivative` rolls the flattened array (C51_roll_defect).
29. Collocated schemes do not see checkerboards (C55_checkerboard); open boundaries (C55_open_boundary_defect).
30. `train_utils.preprocess` raises RuntimeError at the end of a finite iterator (C53_preprocess_end_defect); `streaming_mean` divides by
    the number of all batches even for metrics missing from some (C53_streaming_mean).
31. `brick_wall_filter_2d` is asymmetric, so conservation in C48 is for states strictly inside the symmetric band.
32. Implicit Smagorinsky hands a nonlinear operator to CG (C59_operator_scaling) and does not re-project (C59_implicit_divergence);
    explicit and implicit variants treat the density differently.
33. Encoders slice axis 0 whatever `time_axis` is (C61_time_axis_defect); odd last axes lose a point (C61_odd_axis_defect).
34. `velocity_corrector_network_w_boundaries` has an unusable default (C62_process_default_defect); learned correctors do not
    re-project (C62_divergence).
35. `FusedLearnedInterpolation`: extra axis when the offset is unchanged (C63_same_offset_defect), KeyError for centred scalars
    (C63_centred_scalar_defect).
36. `exponential_filter` uses the size of axis 0 for both axes (C64_exponential_filter_shape_defect).
37. `isotropize` drops or keeps the outer shell by parity (C65_isotropic_parity_defect); displacement labels
    (C65_displacement_label_defect); blind spots of summary metrics (C65_spectrum_metric_defect, C65_correlation_metric_defect);
    dataset conversion (C65_two_scalars_defect, C65_too_few_components_defect).
38. `point_interpolation` order 0 with mode wrap is not periodic at half-integers (C66_order_zero_wrap_defect).
39. `scale_to_range` of a constant channel is NaN (C67_scale_constant_defect); `MirrorConvGeneral` adds up the padding over all kernel
    axes and displaces its output (C67_mirror_conv_displaced, C67_mirror_conv_defect).
40. `top_hat_downsample` with factor 1 and a larger filter returns one value more than the grid has cells (C70_factor_one_defect);
    all ghost cells of a Neumann wall get the same increment, whatever their distance (SpecTopHat.continued).
41. A fixed number of CG iterations guarantees no tolerance (C69_too_few_iterations, C69_finite_propagation); `ml.pressures` uses 32.
42. `metrics.local_reduce` stacks the values of the examples along axis 0 but reduces along `batch_axis` (C71_batch_axis_defect,
    C71_wrong_axis_defect).
43. `ConstantBoundaryConditions.values` of a periodic condition returns zeros although it is documented to return `(None, None)`
    (C15_values).
44. `advect_van_leer` on staggered data takes the second order correction of its fluxes from cells displaced across the flow
    (C27_van_leer_staggered_defect).
45. `imex_rk_sil3` is documented as "third-order accurate for the explicit terms"; for nonlinear explicit terms it is only of second
    order (C75_sil3_not_third_order; it is third order for linear ones, C39_explicit_linear).
46. `explicit_smagorinsky_navier_stokes` divides the eddy acceleration by the density (C59_explicit_terms, C77_smagorinsky_density);
    `learned_scalar_viscosity` and `learned_tensor_viscosity` add `1e-6` to a dimensional scale.
47. Next to a Dirichlet wall the Laplacian of cell-centred (tangential) data does not approach the second derivative under refinement:
    the ghost value `2 b - u` leaves an error of a quarter of it (C73_dirichlet_wall_defect; a known property of this scheme).
48. `convect_linear` always raises ValueError as soon as one axis is bounded by walls: it interpolates the normal velocity to the faces
    of its own control volume, the last of which lies beyond the wall, and `impose_bc` first trims that entry and then rejects the
    array as incomplete (C56_linear_convection_needs_periodic, C56_impose_beyond_wall). As the default convection raises
    NotImplementedError (C56_default_convection_needs_periodic), walls can only be used with `advect_van_leer`.

## 7. Testing the theorems

`seeded/LOG.jsonl` records every seeded bug: the definition edited in a scratch copy of the model, the edit, the claim it
breaks, the theorems that then failed to build, and the theorems that were tightened because they had survived. Mutants that
turned out to be equivalent (no observable change) are marked as such with the reason.
