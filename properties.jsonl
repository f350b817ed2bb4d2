{"id": "C01", "title": "Grid construction keeps step*shape = domain length", "statement": "Grid(shape, step=..) and Grid(shape, domain=..) either raise (TypeError when both step and domain are given, ValueError when a sequence has the wrong length or a domain entry is not a pair) or return a grid with exactly the given shape, whose domain is the given one (or (0, step*size)), and for which upper - lower = step[i] * shape[i] along every axis with shape[i] > 0; with step given, the stored step equals the given step.", "quantifier": "all ranks, all shapes, all scalar or per-axis steps and domains", "why_tests_cant": "unbounded ranks and real-valued domains", "anchors": ["jax_cfd/base/grids.py:Grid.__init__"]}
{"id": "C02", "title": "Grid.axes / mesh points", "statement": "Grid.axes(offset) raises exactly when len(offset) != ndim; otherwise axis j has shape[j] entries, the i-th being lower + (i+offset)*step, strictly increasing when upper > lower, lying in [lower, upper] for offsets in [0,1], at offset 1/2 placed symmetrically in the domain, and mesh()[n][i,j,..] is the i_n-th entry of axis n.", "quantifier": "all grids, offsets and indices", "why_tests_cant": "infinitely many grids/offsets", "anchors": ["jax_cfd/base/grids.py:Grid.axes", "jax_cfd/base/grids.py:Grid.mesh"]}
{"id": "C03", "title": "GridArray arithmetic never mixes offsets or grids", "statement": "Any elementwise ufunc on GridArrays (and any function wrapped by grids.applied) returns an array whose data is the elementwise function of the inputs and whose offset and grid are those of the inputs, exactly when all GridArray inputs have one common offset and one common grid; otherwise it raises InconsistentOffsetError, or else InconsistentGridError; applied() raises ValueError on any GridVariable argument.", "quantifier": "all argument lists of any length", "why_tests_cant": "unbounded argument lists; absence of silent mixing", "anchors": ["jax_cfd/base/grids.py:GridArray.__array_ufunc__", "jax_cfd/base/grids.py:applied"]}
{"id": "C04", "title": "consistent_offset / consistent_grid / unique_boundary_conditions decide uniqueness", "statement": "Each returns v iff the argument list is nonempty and every argument carries v, raises its own error otherwise, and the outcome does not depend on the order or multiplicity of arguments.", "quantifier": "all argument lists", "why_tests_cant": "unbounded lists and permutations", "anchors": ["jax_cfd/base/grids.py:consistent_offset", "jax_cfd/base/grids.py:consistent_grid", "jax_cfd/base/grids.py:unique_boundary_conditions"]}
{"id": "C05", "title": "Offset bookkeeping of faces, averages and differences", "statement": "control_volume_offsets(c)[j] is c.offset moved by +1/2 along j only and equals the offset of forward_difference(c, j); cell_faces[j] is the control-volume face of the cell centre; averaged_offset is the mean; backward differences move by -1/2 and central differences keep the offset.", "quantifier": "all ranks, offsets and nonempty argument lists", "why_tests_cant": "unbounded ranks", "anchors": ["jax_cfd/base/grids.py:control_volume_offsets", "jax_cfd/base/grids.py:averaged_offset", "jax_cfd/base/grids.py:Grid.cell_faces", "jax_cfd/base/finite_differences.py"]}
{"id": "C06", "title": "Pytree flatten/unflatten is lossless", "statement": "tree_unflatten(tree_structure(x), tree_leaves(x)) = x for every object built from tuples, lists, None, GridArray, GridVariable (including its dimension check) and GridArrayTensor, whose leaves are in row-major order; unflattening succeeds exactly for the right number of leaves and returns an object with that structure and those leaves; tree_map changes data only, obeys the functor laws, and over two variables it combines the data when offset, grid and boundary condition agree and raises ValueError otherwise.", "quantifier": "all nestings of the containers, all leaves, all tensor shapes", "why_tests_cant": "trees are nested arbitrarily and tensor shapes are unbounded", "anchors": ["jax_cfd/base/grids.py:GridArray.tree_flatten", "jax_cfd/base/grids.py:GridVariable.tree_flatten", "jax_cfd/base/grids.py:GridArrayTensor"]}
{"id": "C07", "title": "Periodic shift is a cyclic roll", "statement": "For a periodic variable holding the grid's shape, shift(k, axis) succeeds for every integer k, returns shape unchanged, offset+k, and data[i] = u[(i+k) mod n]; shifts along any axes commute and add up, and shifting by a multiple of n is the identity on data.", "quantifier": "all ranks, shapes, integer shifts of any sign and size, offsets", "why_tests_cant": "integer shifts and sizes are unbounded", "anchors": ["jax_cfd/base/boundaries.py:ConstantBoundaryConditions.shift"]}
{"id": "C08", "title": "shift preserves shape and moves the offset", "statement": "Whenever shift(k, axis) succeeds under any mix of periodic, Dirichlet or Neumann conditions and any padding mode, the result has the same grid, the offset moved by exactly k along axis and, for arrays that do not start beyond the upper wall (offset <= grid size), the shape of the input.", "quantifier": "all boundary-condition types, modes, shifts, arrays", "why_tests_cant": "combinatorial", "anchors": ["jax_cfd/base/boundaries.py:ConstantBoundaryConditions.shift"]}
{"id": "C09", "title": "Dirichlet cell-centred ghost cells average to the boundary value", "statement": "For a cell-centred interior array with Dirichlet conditions, padding by one cell on either side gives a ghost value whose mean with the adjacent interior value is exactly the prescribed boundary value, leaving interior data untouched; with MIRROR padding of any width w <= n each ghost cell j and its mirror image average to the boundary value; with EXTEND every ghost cell equals the first one.", "quantifier": "all arrays, ranks, widths, boundary values, both sides", "why_tests_cant": "real-valued data, arbitrary widths", "anchors": ["jax_cfd/base/boundaries.py:ConstantBoundaryConditions._pad"]}
{"id": "C10", "title": "Dirichlet edge-aligned padding places the boundary value on the wall", "statement": "For an edge-aligned Dirichlet interior array, padding by one puts exactly the boundary value at the wall; with EXTEND all ghost values equal it; with MIRROR and boundary value 0 ghost values are the odd reflection of interior values about the wall (for a boundary value b != 0 the code returns b - u instead of 2b - u: recorded defect).", "quantifier": "all arrays, ranks, widths, both sides", "why_tests_cant": "same", "anchors": ["jax_cfd/base/boundaries.py:ConstantBoundaryConditions._pad"]}
{"id": "C11", "title": "Neumann ghost cells reproduce the prescribed normal derivative", "statement": "For a cell-centred array with Neumann conditions, padding by one on either side gives a one-sided difference across the wall, taken along the axis direction, equal to the prescribed value; edge-aligned Neumann data is rejected.", "quantifier": "all arrays, both sides, all gradients", "why_tests_cant": "same", "anchors": ["jax_cfd/base/boundaries.py:ConstantBoundaryConditions._pad"]}
{"id": "C12", "title": "impose_bc makes boundary entries equal to the boundary condition, only those, idempotently", "statement": "For a Dirichlet variable on the grid with offset 0 or 1 along some axes (periodic or cell-centred along the others) impose_bc returns the same shape/offset/grid, the entries lying on the wall equal the boundary value, all other entries are unchanged, and applying it twice is the same as once; for periodic or cell-centred variables it is the identity. fixed_scale_gridvar scales everything but the values on Dirichlet walls.", "quantifier": "all ranks, shapes, data", "why_tests_cant": "all data", "anchors": ["jax_cfd/base/boundaries.py:ConstantBoundaryConditions.impose_bc", "jax_cfd/ml/towers.py:fixed_scale_gridvar"]}
{"id": "C13", "title": "pad then trim is the identity; pad sizes", "statement": "pad with width w (either sign, or a pair) enlarges the axis by exactly |w| (or the sum), moves the offset by the lower width, leaves the grid unchanged, and trimming the padding recovers the original array for every boundary type.", "quantifier": "all arrays, widths, boundary types", "why_tests_cant": "unbounded widths", "anchors": ["jax_cfd/base/boundaries.py:ConstantBoundaryConditions.pad", "jax_cfd/base/boundaries.py:ConstantBoundaryConditions._trim"]}
{"id": "C14", "title": "trim_boundary keeps exactly the interior points", "statement": "For a non-periodic variable the array returned by trim_boundary consists of exactly the entries whose position offset+i lies strictly between 0 and grid.shape (Dirichlet), periodic axes are untouched, and it is idempotent.", "quantifier": "all arrays (padded or not), ranks", "why_tests_cant": "unbounded padding amounts", "anchors": ["jax_cfd/base/boundaries.py:ConstantBoundaryConditions.trim_boundary", "jax_cfd/base/boundaries.py:ConstantBoundaryConditions._trim_padding"]}
{"id": "C15", "title": "Boundary-condition decision logic", "statement": "periodic/dirichlet/neumann/channel constructors give the documented types per axis; consistent_boundary_conditions raises iff two arrays disagree on periodicity along some axis and otherwise reports it per axis; the pressure BC derived from a velocity is periodic exactly on its periodic axes and homogeneous Neumann elsewhere; has_all_periodic is true iff every axis of every array is periodic. values(axis, grid) returns the lower and upper boundary values as arrays over the other axes, or nothing if one is missing (zeros, not None, for periodic conditions: recorded).", "quantifier": "all ranks, all lists of variables", "why_tests_cant": "unbounded lists", "anchors": ["jax_cfd/base/boundaries.py:get_pressure_bc_from_velocity", "jax_cfd/base/boundaries.py:consistent_boundary_conditions", "jax_cfd/base/boundaries.py:has_all_periodic_boundary_conditions", "jax_cfd/base/boundaries.py:ConstantBoundaryConditions.values"]}
{"id": "C16", "title": "Advection flux boundary condition is granted only in the supported cases", "statement": "get_advection_flux_bc_from_velocity_and_scalar succeeds iff the velocity BC is homogeneous and along the flux direction (if non-periodic) each wall is either a zero-Dirichlet velocity or zero-Neumann for velocity and scalar; the result is periodic on periodic axes, zero Dirichlet along parallel walls and zero-valued of the matching type in the flux direction.", "quantifier": "all BC combinations and ranks", "why_tests_cant": "unbounded rank", "anchors": ["jax_cfd/base/boundaries.py:get_advection_flux_bc_from_velocity_and_scalar"]}
{"id": "C17", "title": "Periodic differences telescope (discrete divergence theorem)", "statement": "For periodic variables the sum over the grid of forward, backward and central differences along any axis, and of the divergence of any face-centred vector, is zero.", "quantifier": "all ranks, shapes, data", "why_tests_cant": "all data and sizes", "anchors": ["jax_cfd/base/finite_differences.py"]}
{"id": "C18", "title": "Laplacian = divergence of gradient, symmetric, dissipative", "statement": "For periodic variables laplacian(u) = divergence(gradient_forward(u)) = backward-forward composition; <u, L v> = <L u, v>; <u, L u> = -sum of squared forward differences <= 0, and L u = 0 iff u is constant.", "quantifier": "all ranks, shapes, data", "why_tests_cant": "all data", "anchors": ["jax_cfd/base/finite_differences.py:laplacian"]}
{"id": "C19", "title": "curl of gradient and divergence of curl vanish", "statement": "For periodic variables forward differences along different axes commute, hence curl_2d(gradient) = 0 and curl_3d(gradient) = 0 pointwise, and the sum over the axes of forward_difference(curl_3d(v)[a], a) is zero; divergence(curl_3d(v)) itself is always rejected with InconsistentOffsetError.", "quantifier": "all shapes and data", "why_tests_cant": "all data", "anchors": ["jax_cfd/base/finite_differences.py:curl_2d", "jax_cfd/base/finite_differences.py:curl_3d"]}
{"id": "C20", "title": "Difference operators are linear, exact on affine data away from the seam", "statement": "forward/backward/central difference and laplacian are linear in the data, annihilate constants, and reproduce the slope of data sampled from an affine function (and, for the laplacian and central difference, of a quadratic one) at all points whose stencil does not cross the periodic seam.", "quantifier": "all data, grids, coefficients", "why_tests_cant": "all data", "anchors": ["jax_cfd/base/finite_differences.py"]}
{"id": "C21", "title": "Summation by parts", "statement": "For periodic u and v, sum u*forward_difference(v) = - sum backward_difference(u)*v, so divergence is the negative adjoint of the gradient.", "quantifier": "all ranks, shapes, data", "why_tests_cant": "all data", "anchors": ["jax_cfd/base/finite_differences.py"]}
{"id": "C22", "title": "Neumann and Dirichlet Laplacians respect the boundary conditions", "statement": "With homogeneous Neumann conditions the sum of the laplacian over the grid is zero and constants are in its kernel; with homogeneous Dirichlet conditions <u, L u> <= 0 with equality iff u = 0 (some wall); any mix of periodic axes and homogeneous walls gives a symmetric, dissipative laplacian; the divergence of a velocity with no flow through closed walls sums to zero.", "quantifier": "all 1-axis nonperiodic/periodic mixes, shapes, data", "why_tests_cant": "all data", "anchors": ["jax_cfd/base/finite_differences.py:laplacian", "jax_cfd/base/boundaries.py"]}
{"id": "C23", "title": "Linear interpolation", "statement": "interpolation.linear to the variable's own offset returns it unchanged; by an integer it is the shift; in general along one axis by delta it is the convex combination (ceil-delta)*shift(floor) + (1-(ceil-delta))*shift(ceil) with weights in [0,1] summing to 1; hence it reproduces constants, obeys min/max bounds, and has exactly the requested offset and same bc.", "quantifier": "all deltas, offsets, data", "why_tests_cant": "real offsets", "anchors": ["jax_cfd/base/interpolation.py:linear"]}
{"id": "C24", "title": "Upwind interpolation picks the upstream value", "statement": "upwind returns, at each point, exactly c shifted by floor(delta) where u > 0 and by ceil(delta) otherwise; it raises when more than one axis differs; the result never leaves the range of c.", "quantifier": "all data", "why_tests_cant": "all data and signs", "anchors": ["jax_cfd/base/interpolation.py:upwind"]}
{"id": "C25", "title": "Lax-Wendroff and limiter interpolation", "statement": "van_leer_limiter is 0 for r<=0, in [0,2], bounded by 2r for r>0, equals 1 at r=1 and satisfies phi(r)=r*phi(1/r); the TVD combination low - (low-high)*phi equals low when phi=0 and high when phi=1; lax_wendroff equals the average of neighbours at zero Courant number and the upstream value at |Courant|=1.", "quantifier": "all reals", "why_tests_cant": "continuum", "anchors": ["jax_cfd/base/interpolation.py:van_leer_limiter", "jax_cfd/base/interpolation.py:lax_wendroff", "jax_cfd/base/interpolation.py:apply_tvd_limiter", "jax_cfd/base/interpolation.py:safe_div"]}
{"id": "C26", "title": "Limited interpolation stays between neighbouring values", "statement": "For |u dt/dx| <= 1, the van Leer-limited face value produced by apply_tvd_limiter(lax_wendroff) lies between the two adjacent cell values, whatever the data. The same holds for the interpolation module transformed with its defaults.", "quantifier": "all periodic scalar fields and face velocities under the CFL bound", "why_tests_cant": "all data", "anchors": ["jax_cfd/base/interpolation.py:apply_tvd_limiter", "jax_cfd/ml/interpolations.py:transformed"]}
{"id": "C27", "title": "Advection conserves the scalar whatever the interpolation", "statement": "On periodic grids the sum over all cells of advect_general/advect_linear/advect_upwind/van-Leer tendencies is exactly zero for any velocity and any interpolation functions used; convect_linear is advect_linear of each component, and advect_van_leer agrees with advect_van_leer_using_limiters. On staggered data advect_van_leer takes its second order correction from displaced cells (recorded as defect).", "quantifier": "all ranks, data, interpolators, dt", "why_tests_cant": "interpolators are arbitrary functions", "anchors": ["jax_cfd/base/advection.py:advect_general"]}
{"id": "C28", "title": "Advection of a constant by a divergence-free flow is zero", "statement": "If the face velocity has zero discrete divergence then advecting a constant scalar gives 0 with linear and upwind interpolation.", "quantifier": "all divergence-free fields", "why_tests_cant": "all data", "anchors": ["jax_cfd/base/advection.py"]}
{"id": "C29", "title": "Centred advection conserves energy", "statement": "For periodic c and divergence-free v, sum over cells of c*advect_linear(c,v) = 0.", "quantifier": "all data", "why_tests_cant": "all data", "anchors": ["jax_cfd/base/advection.py:advect_linear"]}
{"id": "C30", "title": "Upwind advection obeys the maximum principle under CFL", "statement": "For divergence-free v on periodic grids and dt such that the outflow fraction per cell is at most one, c + dt*advect_upwind(c, v) stays in [min c, max c].", "quantifier": "all data, dt", "why_tests_cant": "all data", "anchors": ["jax_cfd/base/advection.py:advect_upwind"]}
{"id": "C31", "title": "Stable time steps", "statement": "advection.stable_time_step = max_courant*min(step)/max_velocity, so every |v| <= max_velocity gives |v| dt/dx <= max_courant along every axis; diffusion.stable_time_step = min(step)^2/(nu 2^d) (infinite for nu = 0), and explicit diffusion with dt no larger than this obeys the maximum principle for periodic, zero-Neumann cells and Dirichlet faces and is L2 stable for all homogeneous conditions; equations.stable_time_step returns the advective step and raises ValueError if the diffusive one is smaller, unless diffusion is implicit.", "quantifier": "all grids, velocities, viscosities", "why_tests_cant": "reals", "anchors": ["jax_cfd/base/advection.py:stable_time_step", "jax_cfd/base/diffusion.py:stable_time_step", "jax_cfd/base/equations.py:stable_time_step"]}
{"id": "C32", "title": "Semi-Lagrangian advection obeys the maximum principle", "statement": "advect_step_semilagrangian returns, for any velocity and any dt, a field within [min c, max c] and reproduces constants, translates the data exactly for integer Courant numbers, and raises on non-periodic input.", "quantifier": "all data, dt", "why_tests_cant": "no CFL restriction", "anchors": ["jax_cfd/base/advection.py:advect_step_semilagrangian"]}
{"id": "C33", "title": "Pressure projection", "statement": "For any pressure solver, div(projection(v)) = div v - L q for the q it returns; if it solves L q = div v then projection(v) is divergence free, keeps every component's offset, grid and bc, is idempotent, fixes divergence-free fields, and in closed or periodic domains removes exactly the energy of the pressure gradient.", "quantifier": "all solvers, velocities", "why_tests_cant": "solver is an arbitrary function", "anchors": ["jax_cfd/base/pressure.py:projection"]}
{"id": "C34", "title": "Laplacian matrices agree with the finite-difference stencil", "statement": "For n >= 3 laplacian_matrix(n, step) applied to data equals the periodic second difference, laplacian_matrix_w_boundaries equals the finite-difference laplacian along that axis for Dirichlet/Neumann cell-centred variables and face-aligned Dirichlet variables with homogeneous values, both symmetric; sizes <= 1 raise IndexError; for n = 2 the periodic matrix is not the stencil (recorded defect).", "quantifier": "all n>=3, data", "why_tests_cant": "all sizes", "anchors": ["jax_cfd/base/array_utils.py:laplacian_matrix", "jax_cfd/base/array_utils.py:laplacian_matrix_w_boundaries"]}
{"id": "C35", "title": "Fast diagonalization applies f of the Kronecker sum", "statement": "Given exact eigendecompositions, the transform of f and operators A_1, A_2, .. along the axes applied to x equals p(A_1 + A_2 + ..) x for every real polynomial p that agrees with f on the sums of eigenvalues; so f = identity gives the Kronecker sum, products of functions compose, pseudoinverse inverts on the range and kills the kernel; matmul, fft and rfft implementations agree on circulant operators. For complex Hermitian operators the matmul transform is wrong (recorded defect: transpose instead of adjoint).", "quantifier": "all ranks, sizes, Hermitian operators, functions f", "why_tests_cant": "all matrices", "anchors": ["jax_cfd/base/fast_diagonalization.py:transform", "jax_cfd/base/fast_diagonalization.py:pseudoinverse"]}
{"id": "C36", "title": "Fast-diagonalization solvers solve the discrete equations", "statement": "pressure.solve_fast_diag returns q with laplacian(q) = div v - mean(div v) at every cell, so the default projection leaves exactly the mean divergence, which is zero in periodic or closed domains; diffusion.solve_fast_diag is the backward Euler step, i.e. solves (1 - nu dt L) u' = u for nu dt >= 0 with the boundary conditions of u (no Dirichlet in any dimension, homogeneous walls in 2-D, inhomogeneous Dirichlet along axis 1), has that as its unique solution and obeys the maximum principle for every dt; inputs it cannot treat are rejected. Assumes cutoff * length^2 < 1.", "quantifier": "all grids n>=3, data", "why_tests_cant": "all data", "anchors": ["jax_cfd/base/pressure.py:solve_fast_diag", "jax_cfd/base/diffusion.py:solve_fast_diag"]}
{"id": "C37", "title": "Implementation selection and argument checks of transforms", "statement": "transform / transform_... choose fft, rfft or matmul exactly as documented and raise ValueError on mismatched numbers or shapes of operators; except that the rfft implementation never checks the shape of the right-hand side (recorded defect).", "quantifier": "all argument combinations", "why_tests_cant": "combinatorial", "anchors": ["jax_cfd/base/fast_diagonalization.py:transform"]}
{"id": "C38", "title": "Projected Runge-Kutta time steppers", "statement": "navier_stokes_rk with any tableau equals the textbook explicit RK recursion with every stage projected, skipping zero coefficients is unobservable, forward_euler/midpoint_rk2/heun_rk2/classic_rk4 have the stated closed forms, the result of a step is always an output of the projection, steady states and linear invariants are preserved, on linear fields the schemes are the Taylor polynomials of their order, and a tableau with inconsistent lengths is rejected.", "quantifier": "all tableaux, vector fields, projections, dt", "why_tests_cant": "functions are arbitrary", "anchors": ["jax_cfd/base/time_stepping.py:navier_stokes_rk"]}
{"id": "C39", "title": "IMEX time steppers", "statement": "backward_forward_euler, crank_nicolson_rk2/rk3/rk4, imex_rk_sil3 and general imex_runge_kutta steps satisfy their defining implicit equations given a correct implicit solver, never use a stage value that was skipped, leave steady states fixed (rk4 coefficients only to 1e-12), preserve linear invariants, and are unconditionally stable for dissipative implicit terms as stated; low_storage_runge_kutta_crank_nicolson misses single length mismatches (recorded defect).", "quantifier": "all equations, tableaux, states, dt", "why_tests_cant": "functions are arbitrary", "anchors": ["jax_cfd/spectral/time_stepping.py"]}
{"id": "C40", "title": "repeated / trajectory / scan composition laws", "statement": "repeated(f, n) is n-fold composition (and repeated(repeated(f,m),n) = repeated(f, m*n)); trajectory(f, steps) returns the final state f^steps(x) and frames f^(i)(x) or f^(i+1)(x) according to start_with_input, post-processed, with the restart and subsampling laws; inside init_context, nested to any depth, every function is called exactly once (even for 0 steps), the shapes are the same, and the counter is restored when the context is left.", "quantifier": "all step functions, states, step counts", "why_tests_cant": "unbounded steps", "anchors": ["jax_cfd/base/funcutils.py"]}
{"id": "C41", "title": "Array slicing, splitting and concatenation round-trip", "statement": "slice_along_axis, split_along_axis and split_axis/concat_along_axis are mutually inverse: concatenating the two parts of split_along_axis recovers the array for every index and axis (including negative axes); axis normalization raises exactly outside [-ndim, ndim).", "quantifier": "all ranks, shapes, axes, split points", "why_tests_cant": "unbounded", "anchors": ["jax_cfd/base/array_utils.py"]}
{"id": "C42", "title": "block_reduce partitions the array", "statement": "block_reduce(mean/sum) over block sizes dividing the shape: each output cell aggregates exactly its block; the total sum is preserved by block sums.", "quantifier": "all shapes and blocks", "why_tests_cant": "unbounded", "anchors": ["jax_cfd/base/array_utils.py:block_reduce"]}
{"id": "C43", "title": "1-d interpolation", "statement": "interp1d linear returns the node values at nodes, stays between neighbouring values inside, and handles out-of-range queries exactly as fill_value prescribes; nodes may be given unsorted (assume_sorted=False), but then mismatched sizes are never rejected (recorded defect).", "quantifier": "all increasing nodes, queries", "why_tests_cant": "reals", "anchors": ["jax_cfd/base/array_utils.py:interp1d"]}
{"id": "C44", "title": "gram_schmidt_qr factorizes", "statement": "For matrices whose orthogonalization does not break down gram_schmidt_qr returns q with orthonormal columns and upper triangular r with positive diagonal and q r = input, the only such factorization.", "quantifier": "all sizes", "why_tests_cant": "all matrices", "anchors": ["jax_cfd/base/array_utils.py:gram_schmidt_qr"]}
{"id": "C45", "title": "Downsampling a staggered velocity preserves divergence", "statement": "downsample_staggered_velocity yields a coarse field whose discrete divergence in each coarse cell is the mean of the fine divergence over that cell, for periodic axes and walls with any boundary values; divergence-free stays divergence-free and total flux is preserved; coarse grids over a different domain and component grids other than the source grid are refused; on anisotropic refinements only the first axis decides the factor (recorded defect).", "quantifier": "all factors, shapes, data", "why_tests_cant": "all data", "anchors": ["jax_cfd/base/resize.py:downsample_staggered_velocity"]}
{"id": "C46", "title": "Spectral downsampling and Fourier padding", "statement": "truncated_rfft(padded_irfft(x)) restores every mode of x (and its size when the rfft length is odd; one extra mode otherwise), quadratic products formed on the padded grid are free of aliasing (a single alias in the last mode), padded_ifft_2x/truncated_fft_2x round-trip and dealias cubic products for even sizes, the brick-wall and circular filters take values in [0,1] and keep the mean, rfft_mesh wavenumbers are the unique centred representatives divided by the domain length, and downsample_spectral of a band-limited field is the spectrum of the sampled field (even number of rows; wrong modes for odd: recorded defect).", "quantifier": "all sizes", "why_tests_cant": "unbounded sizes", "anchors": ["jax_cfd/spectral/utils.py", "jax_cfd/base/resize.py:downsample_spectral"]}
{"id": "C47", "title": "vorticity_to_velocity inverts the curl", "statement": "The spectral velocity computed from vorticity is divergence free for every mode and its curl is the vorticity in every nonzero mode (zero in the mean mode); it is also a left inverse of the curl on divergence-free mean-free fields and satisfies the energy-enstrophy identity per mode.", "quantifier": "all grids, spectra", "why_tests_cant": "all data", "anchors": ["jax_cfd/spectral/utils.py:vorticity_to_velocity"]}
{"id": "C48", "title": "Spectral equations: implicit solve is the exact inverse of the implicit term", "statement": "implicit_solve(u, dt) of the spectral equations satisfies u' - dt*implicit_terms(u') = u: Navier-Stokes and Burgers for all dt >= 0 and nonnegative viscosity/drag, with contraction, Kuramoto-Sivashinsky for 0 <= dt < 4 (singular beyond), Schroedinger always and unitary; explicit terms are the Galerkin projection of the nonlinear term and conserve energy (KS, Burgers) or mass (NLS); the explicit Navier-Stokes term of a state resolved inside the 2/3 band is exactly the spectrum of -(u w_x + v w_y) with u, v, w_x, w_y the exact derivatives, without aliasing, so it conserves total vorticity, enstrophy and kinetic energy, and forcing adds its curl; grid sizes congruent 2 mod 4 fail and smooth=False still filters (recorded defects).", "quantifier": "all wavenumbers, dt>=0", "why_tests_cant": "all data", "anchors": ["jax_cfd/spectral/equations.py"]}
{"id": "C49", "title": "Forcings and spectral filters", "statement": "sum_forcings adds its parts and rejects mismatched offsets/grids; linear, zero, Kolmogorov and Taylor-Green forcings have their stated values, offsets and grid, whatever the velocity; Kolmogorov forcing is discretely divergence free for every wavenumber, Taylor-Green forcing on square isotropic grids (not on others: recorded); simple_turbulence_forcing is linear + named forcing and rejects unknown names; the spectral filter multiplies each Fourier coefficient by the density at its wavenumber, removes the mean, loses nothing when taking the real part, and composes multiplicatively; filtered_linear_forcing acts on exactly the modes in its band.", "quantifier": "all grids, velocities, densities, wavenumbers", "why_tests_cant": "all data", "anchors": ["jax_cfd/base/forcings.py", "jax_cfd/base/filter_utils.py"]}
{"id": "C50", "title": "Tiling and padding of periodic convolutions is invisible", "statement": "space_to_batch and batch_to_space are inverse to each other for every tile layout dividing the shape; halo_exchange_pad gives every tile the periodic neighbours it needs, corners included; apply_convolution of any convolution with valid boundary conditions computes the window function on the periodic array at every point, so its result does not depend on the layout and commutes with translations. Periodic (dilated) convolution and transpose convolution modules equal the periodic formulas, with the output shape of the input (times the stride). Layouts that do not divide, halos wider than a tile and wrong batch sizes are refused.", "quantifier": "all shapes, layouts, paddings, kernels, weights, strides, dilation rates, window functions", "why_tests_cant": "unbounded shapes and layouts, arbitrary window functions", "anchors": ["jax_cfd/ml/tiling.py:space_to_batch", "jax_cfd/ml/tiling.py:batch_to_space", "jax_cfd/ml/tiling.py:halo_exchange_pad", "jax_cfd/ml/tiling.py:apply_convolution", "jax_cfd/ml/layers.py:PeriodicConvGeneral", "jax_cfd/ml/layers.py:PeriodicConvTransposeGeneral"]}
{"id": "C51", "title": "Stencils and patches", "statement": "get_roll_and_shift splits target - input into whole cells and a fraction in [0, 1); get_stencils lists the positions of the stencil cells relative to the target; extract_patches, by rolling or by (tiled) convolution, returns at every point the periodic neighbours in stencil order, the two methods agree for every tile layout, and fused_extract_patches returns copies of them; unknown methods, several channels and unequal shapes are refused. Recorded defect: the derivative layers call jnp.roll without an axis, which in two or more dimensions does not align the patches when a roll is needed.", "quantifier": "all shapes, stencil sizes, offsets, tile layouts, data", "why_tests_cant": "unbounded shapes and stencils", "anchors": ["jax_cfd/ml/layers_util.py:get_roll_and_shift", "jax_cfd/ml/layers_util.py:get_stencils", "jax_cfd/ml/layers_util.py:extract_patches", "jax_cfd/ml/layers_util.py:fused_extract_patches", "jax_cfd/ml/layers.py:SpatialDerivativeFromLogits"]}
{"id": "C52", "title": "Learned derivative stencils are polynomially accurate whatever the network says", "statement": "Coefficients satisfy the constraints of polynomial_accuracy_constraints exactly when the weighted sum of the samples (point values or cell averages) of every polynomial of total degree below accuracy + order is its derivative at the target; polynomial_accuracy_coefficients satisfies them; PolynomialConstraint returns such coefficients for every input vector of length subspace_size; hence SpatialDerivativeFromLogits and SpatialDerivative differentiate such polynomials exactly at every point for all logits / networks, and fuse_spatial_derivative_layers gives each layer's own result on its part of the logits. Recorded defects: the constraint system may have more rows than columns, giving a negative subspace size and a wrong null space.", "quantifier": "all network outputs, stencils, orders, accuracies, polynomials, dimensions", "why_tests_cant": "network output is arbitrary, all polynomials, any dimension", "anchors": ["jax_cfd/ml/layers_util.py:polynomial_accuracy_constraints", "jax_cfd/ml/layers_util.py:polynomial_accuracy_coefficients", "jax_cfd/ml/layers.py:PolynomialConstraint", "jax_cfd/ml/layers.py:SpatialDerivativeFromLogits", "jax_cfd/ml/layers.py:SpatialDerivative", "jax_cfd/ml/layers.py:fuse_spatial_derivative_layers"]}
{"id": "C53", "title": "streaming_mean and training-loop bookkeeping", "statement": "streaming_mean calls the metric once per batch and returns, for every metric name that occurs, the sum of its values divided by the number of all batches; the result does not depend on the order of the batches, lies between the bounds of the values of a metric that every batch reports, and an empty stream raises. A run of the training step over any list of batches threads the optimizer state and increments the step number by one per batch, with the loss and gradient of the current parameters. preprocess yields f(x_i, rng_i) for the i-th element; when a finite iterator ends it raises RuntimeError instead of stopping (a defect, PEP 479). add_noise_to_input_frame changes only frame 0 along axis 1, by at most twice the scale, keeps the shapes and uses one key per leaf.", "quantifier": "all streams of batches, metrics, optimizers, iterators, noise", "why_tests_cant": "unbounded streams and arbitrary callbacks", "anchors": ["jax_cfd/ml/train_utils.py:streaming_mean", "jax_cfd/ml/train_utils.py:train_step", "jax_cfd/ml/train_utils.py:preprocess", "jax_cfd/ml/train_utils.py:add_noise_to_input_frame"]}
{"id": "C54", "title": "Error metrics are metrics", "statement": "l2_loss_cumulative is scale times the squared error of the first n frames (Python slice semantics for n), l2_loss_single_step that of one frame; the former is the running sum of the latter; both are symmetric, nonnegative and, for a positive scale, zero only if the compared frames agree. Components without a counterpart are ignored silently (a defect). correlation_single_step is always between -1 and 1, invariant under positive rescaling of the trajectory and 1 for identical nonvanishing fields, but the axes it sums over are off by one: the batch axis is mixed in and the last space axis is left out, so the correlation of a batch of perfectly correlated samples can be below 1 (a defect).", "quantifier": "all trajectories, component counts, ranks, axes and frame numbers", "why_tests_cant": "all real data, ranks and axes", "anchors": ["jax_cfd/ml/metrics.py:l2_loss_cumulative", "jax_cfd/ml/metrics.py:l2_loss_single_step", "jax_cfd/ml/metrics.py:correlation_single_step"]}
{"id": "C55", "title": "Collocated schemes", "statement": "For periodic fields at the cell centres: advect_linear is minus the centred difference of the product c*v, convect_linear applies it to every component, diffuse is nu times the second difference over two cells; all of them preserve the total, and diffuse dissipates exactly nu |grad c|^2. projection subtracts the centred gradient of the solver's pressure; with an exact solver (one always exists, and any two give the same velocity) the centred divergence of the result vanishes, momentum is kept and the energy drops by that of the gradient; with solve_cg the divergence left over is the residual of conjugate gradients. A default step succeeds for every dt, returns a divergence-free field, changes momentum by dt*forcing/density and keeps uniform flow; filtered_velocity_field returns a divergence-free field with the requested maximum speed. Fields that are not periodic are rejected. On grids of even size checkerboards are invisible to all of these (a limitation).", "quantifier": "all grids, dimensions, fields, viscosities, densities, time steps, numbers of steps, noise and conjugate-gradient routines", "why_tests_cant": "all data, unbounded steps, arbitrary solver", "anchors": ["jax_cfd/collocated/advection.py:advect_linear", "jax_cfd/collocated/advection.py:convect_linear", "jax_cfd/collocated/diffusion.py:diffuse", "jax_cfd/collocated/pressure.py:projection", "jax_cfd/collocated/pressure.py:solve_cg", "jax_cfd/collocated/equations.py:semi_implicit_navier_stokes", "jax_cfd/collocated/initial_conditions.py:filtered_velocity_field"]}
{"id": "C56", "title": "Navier-Stokes steps", "statement": "semi_implicit_navier_stokes computes, for each stage of its Runge-Kutta stepper, convection + (viscosity/density) diffusion + forcing/density, and returns a pressure projection; on a periodic domain with an exact pressure solver (such as the default) every step with the defaults succeeds, the new field is divergence free, total momentum changes by exactly dt * (total forcing)/density, and uniform flow (in particular rest) is steady, over any number of steps and for every time stepper. implicit_diffusion_navier_stokes takes an explicit Euler step, a projection and a backward Euler diffusion step with the same guarantees; without convection it never increases the energy. With walls the explicit step is divergence free only if the explicit terms vanish at the stored wall points (a defect: wall values are imposed after the solve), and both the default convection and convect_linear are refused (impose_bc rejects any array that fills the grid but reaches beyond a wall).", "quantifier": "all velocity fields, time steps, viscosities, densities, steppers, convection/forcing functions, numbers of steps", "why_tests_cant": "unbounded steps, arbitrary functions", "anchors": ["jax_cfd/base/equations.py:navier_stokes_explicit_terms", "jax_cfd/base/equations.py:semi_implicit_navier_stokes", "jax_cfd/base/equations.py:implicit_diffusion_navier_stokes", "jax_cfd/base/time_stepping.py:navier_stokes_rk"]}
{"id": "C57", "title": "Initial conditions", "statement": "filtered_velocity_field with at least one iteration returns, for any noise, a periodic velocity on the cell faces whose discrete divergence is zero at every cell and whose largest speed is maximum_velocity (unless the projected noise vanishes identically, where the code divides by zero); in exact arithmetic further iterations change nothing. initial_velocity_field samples the given functions at the face positions and, with at least one iteration, is divergence free in a periodic or closed domain if the functions take the prescribed wall values. wrap_variables puts arrays on the faces and, for periodic conditions, changes no value.", "quantifier": "all noise arrays, grids, maxima, numbers of iterations, velocity functions", "why_tests_cant": "random input, unbounded iterations", "anchors": ["jax_cfd/base/initial_conditions.py:filtered_velocity_field", "jax_cfd/base/initial_conditions.py:initial_velocity_field", "jax_cfd/base/initial_conditions.py:wrap_variables"]}
{"id": "C58", "title": "Taylor-Green validation problem", "statement": "TaylorGreen.velocity(t, offsets) samples exp(-2 nu t)(cos kx x sin ky y, -sin kx x cos ky y) at the stored positions with periodic conditions; for kx = ky = +-1 that field solves the incompressible Navier-Stokes equations exactly for every viscosity and density; for integer wavenumbers its discrete divergence has the closed form that vanishes for kx = ky on square grids, and each component is an eigenvector of the discrete laplacian.", "quantifier": "all shapes, wavenumbers, viscosities, times, offsets", "why_tests_cant": "a PDE identity for all t, x, y; all grid sizes", "anchors": ["jax_cfd/base/validation_problems.py:TaylorGreen"]}
{"id": "C59", "title": "Eddy viscosity (Smagorinsky) models", "statement": "evm_model raises ValueError if any component has a wall; on a periodic staggered velocity field it returns, for any viscosity model, an acceleration on the faces of the velocity with zero mean whose power is -2 sum(nu s^2) when the viscosity is symmetric; with a constant viscosity and a divergence-free field it equals diffuse(v, nu). smagorinsky_viscosity succeeds on every periodic field and is (cs*cutoff)^2 sqrt(2 S:S) at cell centres interpolated to the strain positions, symmetric and nonnegative, so the model never produces energy; it is Galilean invariant and scales like |c|. The learned viscosities are symmetric whatever the network. implicit_evm_solve_with_diffusion is the backward Euler step, conserves momentum and never increases energy for any dt >= 0 if the inner solver solves its equation; its operator is symmetric positive definite only for frozen viscosity (with Smagorinsky it is not linear), and its result is divergence free only if the eddy acceleration is. Explicit Smagorinsky steps are divergence free and conserve momentum; the eddy acceleration is divided by the density there but not in the implicit variant (recorded). A viscosity learned from velocity gradients is symmetric and Galilean invariant, and extracts energy whenever its network is nonnegative; eddy_viscosity_model hands the configured viscosity scale (or the viscosity of the fluid) to the viscosity model.", "quantifier": "all dimensions, periodic grids, velocity fields, constants, time steps, viscosity models, networks, interpolations and steppers", "why_tests_cant": "nonlinear functionals of arbitrary fields; energy stability and invariance are universal statements", "anchors": ["jax_cfd/base/subgrid_models.py:evm_model", "jax_cfd/base/subgrid_models.py:smagorinsky_viscosity", "jax_cfd/base/subgrid_models.py:implicit_evm_solve_with_diffusion", "jax_cfd/base/subgrid_models.py:explicit_smagorinsky_navier_stokes", "jax_cfd/base/subgrid_models.py:implicit_smagorinsky_navier_stokes", "jax_cfd/ml/viscosities.py:learned_scalar_viscosity", "jax_cfd/ml/viscosities.py:learned_tensor_viscosity", "jax_cfd/ml/viscosities.py:learned_scalar_viscosity_from_gradients", "jax_cfd/ml/viscosities.py:eddy_viscosity_model", "jax_cfd/ml/diffusions.py:implicit_evm_solve_with_diffusion"]}
{"id": "C60", "title": "Model rollouts, training trajectories and the explicit Euler integrator", "statement": "For every model the trajectory returned by trajectory(...) consists of the decoded states after each block of inner_steps applications of advance (starting with or without the initial state), and the final state is the one after inner_steps*outer_steps applications; decoded_trajectory_with_inputs returns the given input frames unchanged followed by the predicted frames, the predictions depend on the first num_init_frames frames only, and so the cumulative l2 loss of such a trajectory counts the predicted frames only; euler_integrator computes x + dt f(x) repeatedly (powers of 1 + dt A for linear f), time_derivative_network_model advances by dt times (network + forcing), and identity_model repeats the state.", "quantifier": "every model, input, number of inner and outer steps and of initial frames", "why_tests_cant": "a test runs one network for a few steps; the statement is about every step function and any number of steps", "anchors": ["jax_cfd/ml/model_builder.py", "jax_cfd/ml/model_utils.py", "jax_cfd/ml/time_integrators.py", "jax_cfd/ml/equations.py"]}
{"id": "C61", "title": "Encoders and decoders", "statement": "aligned_array_encoder returns the last frame of every component at the given (default: cell face) offsets with its boundary condition imposed, so aligned_array_decoder returns those frames and re-encoding a decoded state changes nothing; the collocated encoder/decoder pair averages to faces and back (the binomial 1-2-1 filter) and keeps the total; slice/stack encoders keep exactly the last n frames, component by component, channels_split_decoder undoes the stacking, and a latent encoder depends on nothing but these frames (defect: the slice is taken along axis 0 whatever time_axis is). spectral_vorticity_encoder and spectral_vorticity_decoder, and vorticity_encoder and vorticity_decoder, are mutually inverse on divergence-free velocities of zero mean (the field version: without Nyquist frequencies; even last axis), and on vorticities up to the mean.", "quantifier": "all grids, trajectories, numbers of frames, networks, offsets and boundary conditions; all real fields for the spectral pair", "why_tests_cant": "Roundtrips are identities over all velocity fields and all grid sizes; a test sees a few random fields.", "anchors": ["jax_cfd/ml/encoders.py: aligned_array_encoder, collocated_to_staggered_encoder, slice_last_state_encoder, slice_last_n_state_encoder, stack_last_n_state_encoder, latent_encoder, aligned_latent_encoder, vorticity_encoder, vorticity_velocity_encoder, spectral_vorticity_encoder", "jax_cfd/ml/decoders.py: aligned_array_decoder, staggered_to_collocated_decoder, channels_split_decoder, latent_decoder, aligned_latent_decoder, vorticity_decoder, spectral_vorticity_decoder"]}
{"id": "C62", "title": "Correction networks and learned correctors", "statement": "flux_corrector_network turns ndim^2 network channels into minus the divergence of a flux tensor at the cell faces, so whatever the network and its weights, a step of learned_corrector / learned_corrector_v2 / learned_corrector_v3 with it has the same total of every velocity component as the step of the base solver (fewer channels are rejected); velocity_corrector_network maps component channels to face components; stack_aligned_field_with_neighbors lists all shifted copies and the components themselves. learned_corrector adds the correction of the new state without dt, v2 dt times the correction of the old state, v3 of both; a zero correction gives the base step and mismatching offsets, grids, shapes or boundary conditions are rejected. The divergence of the corrected state is that of the base step plus that of the correction: nothing is projected afterwards. Defect: velocity_corrector_network_w_boundaries fails on every input with its default process_fn.", "quantifier": "all networks, preprocessing functions, base solvers, grids and states", "why_tests_cant": "Neural networks are arbitrary functions: the claim quantifies over all weights; a test runs a few random initialisations.", "anchors": ["jax_cfd/ml/networks.py: stack_aligned_field, stack_aligned_field_with_neighbors, split_to_aligned_field, aligned_field_from_split_divergence, tower_module, velocity_corrector_network, velocity_corrector_network_w_boundaries, flux_corrector_network", "jax_cfd/ml/equations.py: learned_corrector, learned_corrector_v2, learned_corrector_v3"]}
{"id": "C63", "title": "Learned interpolation and the modular Navier-Stokes model", "statement": "FusedLearnedInterpolation (isotropic or anisotropic stencils, constraints fused or not) and IndividualLearnedInterpolation return, for every network and every weights, a variable at the target offset with unchanged shape, grid and boundary condition, equal to the data wherever the stencil sees a single value; fuse_constraints never changes the result; an offset pair or tag that was not prepared is a KeyError. Used through modular_self_advection/self_advection on a periodic staggered velocity they always succeed, every component of the tendency sums to exactly zero and uniform flow has zero tendency. modular_navier_stokes_model steps with an exact pressure solver return divergence-free fields whatever the networks, and change total momentum only by the forcings.", "quantifier": "every dimension, grid shape with one common step, network function, velocity field, list of acceleration modules, time step", "why_tests_cant": "quantifies over all network outputs, all grids and all states; a test sees one random initialisation on one grid", "anchors": ["jax_cfd/ml/interpolations.py: FusedLearnedInterpolation, IndividualLearnedInterpolation, anisotropic_learned_interpolation", "jax_cfd/ml/advections.py: modular_self_advection, self_advection", "jax_cfd/ml/equations.py: modular_navier_stokes_model", "jax_cfd/ml/forcings.py: kolmogorov_forcing, taylor_green_forcing"]}
{"id": "C64", "title": "Spectral time stepping, exponential filter and spectral forcings", "statement": "Over any number of steps of the spectral Navier-Stokes solver (crank_nicolson_rk4 with the 2/3 filter), from any vorticity without Nyquist modes, unforced or with any forcing that maps resolved velocities to resolved fields, the total vorticity is multiplied by exactly the Crank-Nicolson damping factor of the drag per step (so it is conserved without drag and never grows with drag), and no Nyquist modes appear; modular_spectral_step_fn with do_filter_step damps every mode of that step by the exponential filter and keeps the total. Without the filter and with nonnegative dt, viscosity and drag, every step is the textbook low-storage scheme in the explicit and implicit terms of the equation, for every state and forcing on the grid. exponential_filter on n x n arrays (n even) multiplies mode k by alpha^(|k/n|^(2 order)), keeps the sum, never increases the sum of squares, composes multiplicatively in alpha (non-square arrays are rejected, an odd number of columns loses a point: recorded). random_forcing_module is the stated sum of sine waves, bounded by n/2, contains only wavenumbers 3..6 and has mean zero on grids of length 2 pi, so forced Burgers keeps the mean of the solution; vorticity_space_forcing evaluates the forcing at the divergence free, mean free periodic velocity at offset (0,0) with the given vorticity and returns the spectral curl of it, exactly -scale k cos(k y) for Kolmogorov forcing, and fails for every state when a linear coefficient is set (recorded defect).", "quantifier": "all grids, states, viscosities, drags, time steps, numbers of steps, forcings, filter parameters, random draws", "why_tests_cant": "statements about every state and every number of steps; conservation to all orders is not testable with floating point runs on examples", "anchors": ["jax_cfd/spectral/utils.py:exponential_filter", "jax_cfd/spectral/forcings.py:random_forcing_module", "jax_cfd/ml/forcings.py:vorticity_space_forcing", "jax_cfd/ml/forcings.py:kolmogorov_forcing", "jax_cfd/ml/equations.py:modular_spectral_step_fn", "jax_cfd/spectral/time_stepping.py:crank_nicolson_rk4"]}
{"id": "C65", "title": "Datasets: conversion, spectra, correlations and summary metrics", "statement": "velocity_trajectory_to_xarray stores one optional scalar as c and the d velocity components as u, v, w with the data given and the face offsets (two scalars are an IndexError and too few components are stored twice: recorded); the coordinates are cell centres; grid_from_attrs rebuilds the grid from the attributes. vorticity_2d of a stored periodic staggered velocity is curl_2d of it, sums to zero, enstrophy_2d is half its square. energy_spectrum at wavenumber k is half the sum of |Fourier transform|^2, its total is the number of points times the total kinetic energy, it is symmetric in k and invariant under translation. isotropize sums the spectrum over disjoint shells ((j+1/2)D, (j+3/2)D], never exceeds the total and on square domains drops or keeps the outermost shell depending on parity (recorded); by interpolation it never leaves the range of wavenumbers and a constant c gives 2 pi k c. spatial_autocorrelation is the periodic mean of u(x)u(x+s), bounded by its value at zero; temporal_autocorrelation is the lagged mean without wrap-around at multiples of the unit of time; state_correlation is the mean cosine, in [-1,1], 1 for positive multiples, scale invariant. The failure metrics are nonnegative and vanish exactly when the prediction agrees above and stays small below the threshold (up to recorded blind spots); average lies between the bounds of the data.", "quantifier": "all datasets, dimensions, grid sizes and steps, velocities, samples, times and thresholds", "why_tests_cant": "identities over every field and every size; tests use a few fields with tolerances", "anchors": ["jax_cfd/data/xarray_utils.py:velocity_trajectory_to_xarray", "jax_cfd/data/xarray_utils.py:grid_from_attrs", "jax_cfd/data/xarray_utils.py:vorticity_2d", "jax_cfd/data/xarray_utils.py:energy_spectrum", "jax_cfd/data/xarray_utils.py:isotropize", "jax_cfd/data/xarray_utils.py:spatial_autocorrelation", "jax_cfd/data/evaluation.py:state_correlation", "jax_cfd/data/evaluation.py:temporal_autocorrelation", "jax_cfd/data/evaluation.py:energy_spectrum_metric", "jax_cfd/data/evaluation.py:average"]}
{"id": "C66", "title": "Point interpolation", "statement": "point_interpolation(point, c, order, mode, cval) returns the stored entry at a data point, for order 0 and 1 and every mode; every value at any point lies within the bounds of the data (and of cval for the mode constant); it is linear in the data; order 1 is exact for multilinear functions inside the box of data points; outside, nearest continues by the closest point of the box, wrap is periodic with the number of data points times the step, reflect is even about the walls half a step outside, mirror is even about the first and last data points and constant gives cval one step outside; order 0 returns the value of a nearest data point (but is not periodic at half-way points in the mode wrap: recorded defect); for a periodic variable order 1 with wrap agrees with linear(c, offset) at every data point of the target offset; other orders and modes raise NotImplementedError.", "quantifier": "all dimensions, grids, offsets, data, points inside and outside the domain, modes and both orders", "why_tests_cant": "the point is a continuous parameter, in all of space", "anchors": ["jax_cfd/base/interpolation.py:point_interpolation", "jax_cfd/base/interpolation.py:linear"]}
{"id": "C67", "title": "Convolutional towers", "statement": "Forward towers (and strided, transposed, residual, MLP towers, channel rescaling and residual connections) built from periodic convolutions are translation equivariant: translating the input by m cells translates the output by the corresponding number of cells, for all weights and all pointwise nonlinearities, and failures do not depend on translations; a strided periodic convolution of an axis with n points has ceil(n/stride) points and its output i is the kernel applied to the periodic input around stride*i, and inputs smaller than the reach of the kernel are refused; the output of a tower without strides at a point depends only on inputs within the sum of the reaches of its kernels (receptive field); kernel_shapes, rates and strides must have the same length as the channel list (ValueError otherwise); scale_to_range maps every non-constant channel onto exactly [min_value, max_value], is invariant under increasing affine changes of the channel and is NaN for a constant channel (recorded defect); a residual tower with zero blocks is the identity plus skip; non_periodic_convolution uses only entries inside the array and agrees with the periodic one away from the boundary; MirrorConv of periodic variables is displaced by the reach of the other axes of the kernel relative to PeriodicConv (recorded defect).", "quantifier": "all dimensions 1-3, shapes, weights, biases, kernel shapes, rates, strides, numbers of layers, nonlinearities, inputs and translations", "why_tests_cant": "the weights, architectures and inputs are unbounded", "anchors": ["jax_cfd/ml/towers.py:forward_flex_tower_factory", "jax_cfd/ml/towers.py:forward_tower_factory", "jax_cfd/ml/towers.py:residual_block_tower_factory", "jax_cfd/ml/towers.py:scale_to_range", "jax_cfd/ml/layers.py:PeriodicConvGeneral", "jax_cfd/ml/layers.py:PeriodicConvTransposeGeneral", "jax_cfd/ml/layers.py:MirrorConvGeneral"]}
{"id": "C68", "title": "Translation equivariance of the periodic solver", "statement": "On a periodic grid nothing in the finite-volume solver depends on where the origin is: differences, Laplacian, divergence, curl, diffusion, interpolation (linear, upwind, Lax-Wendroff, limited), all advection schemes, convection, semi-Lagrangian advection, pressure projection (with an exact solver, however it works, or any solver that commutes with translations), diffusion solves and whole Navier-Stokes steps (semi-implicit with any Runge-Kutta stepper, or with implicit diffusion) map a field translated by any number of cells to the translated result, and raise the same exceptions. Hence for the default solver the trajectory of a translated initial state is the translated trajectory, for every number of steps, and states invariant under a translation (for example not varying along an axis) stay invariant. The projection does not depend on which exact solver is used.", "quantifier": "every dimension, periodic grid, field, translation vector, time step, density, viscosity, tableau and number of steps; every interpolation/convection/diffusion/forcing function that itself commutes with the translation", "why_tests_cant": "a test compares one shifted run with one run; the claim is about every shift, grid and sequence of steps, and about the solver being exact whatever its algorithm", "anchors": ["jax_cfd/base/finite_differences.py:laplacian", "jax_cfd/base/advection.py:advect_van_leer", "jax_cfd/base/advection.py:advect_step_semilagrangian", "jax_cfd/base/pressure.py:projection", "jax_cfd/base/equations.py:semi_implicit_navier_stokes", "jax_cfd/base/equations.py:implicit_diffusion_navier_stokes"]}
{"id": "C69", "title": "Conjugate gradient solvers for pressure and diffusion", "statement": "With pressure.solve_cg(v, q0, rtol, atol, maxiter), in periodic and closed domains (any mixture) and from any initial guess, the returned pressure satisfies |divergence(v) - laplacian(q)|^2 <= max(rtol^2 |divergence(v)|^2, atol^2) with the default maxiter or any maxiter not below the number of cells, so projection leaves at most that divergence (none for zero tolerances), after every Navier-Stokes step; for every maxiter the divergence left is the residual of the linear system, each iteration spreads the correction by at most one cell and a fixed maxiter (32 in ml.pressures) guarantees no tolerance on large grids. diffusion.solve_cg raises ValueError unless all boundaries are periodic, and otherwise for nu dt >= 0 returns a field within max(rtol |u|, atol) of the exact backward Euler step (exact for zero tolerances).", "quantifier": "all dimensions, grids, velocity fields, initial guesses, tolerances, iteration limits, viscosities, time steps, terms and steppers", "why_tests_cant": "convergence of an iteration for every right-hand side on every grid is a theorem about the operator; tests run a few fields", "anchors": ["jax_cfd/base/pressure.py:solve_cg", "jax_cfd/base/pressure.py:projection", "jax_cfd/base/diffusion.py:solve_cg", "jax_cfd/ml/pressures.py:conjugate_gradient", "jax_cfd/ml/diffusions.py:solve_cg"]}
{"id": "C70", "title": "Top-hat downsampling", "statement": "top_hat_downsample(source, destination, variables, filter_size), for even (or 1) step ratios and filter sizes not below the ratio, returns each variable on the destination grid with its offset and boundary conditions; every value whose window does not cross a wall is the mean of filter_size fine cells, of the linear interpolation to the cell centers, centered at the coarse point. Hence with the default filter a cell-centered coarse cell carries the mean of the fine cells that make it up (also between walls); for periodic variables constants and bounds are preserved, the domain mean is preserved when the filter size is a multiple of the ratio, and translating by whole coarse cells translates the result; values of a face variable on a Dirichlet wall are the wall values. Grids over different domains, ratios that are not whole, odd factors or filters, filters smaller than the factor, variables on another grid and offsets other than 0, 1/2, 1 are refused.", "quantifier": "all dimensions, grids, factors, filter sizes, lists of variables, data, supported offsets and boundary conditions", "why_tests_cant": "the window of every point for every factor, filter size and offset cannot be enumerated; tests compare a few constant fields", "anchors": ["jax_cfd/base/resize.py:top_hat_downsample"]}
{"id": "C71", "title": "Batch reductions of metrics", "statement": "local_mean(metric) and local_sum(metric) return the mean and the sum of the metric over the examples of the batch, whatever the order of the examples; splitting a batch evenly over devices and using distributed_mean/distributed_sum of the local reduction gives the same value as one device holding the whole batch, on every device; l2_loss_cumulative of a batch is the sum of the losses of its examples. With a batch axis other than 0 the examples are stacked along axis 0 but reduced along the batch axis: scalar metrics are then refused for every positive axis (-1 works when it is the last axis), and array-valued metrics are reduced over the wrong axis.", "quantifier": "all metrics, batch sizes, numbers of devices, ranks and shapes of the arguments, batch axes", "why_tests_cant": "the invariance holds for every metric, every batch size and every way of distributing it over devices; tests use one device and a few examples", "anchors": ["jax_cfd/ml/metrics.py:local_reduce", "jax_cfd/ml/metrics.py:distributed_reduce", "jax_cfd/ml/metrics.py:local_mean", "jax_cfd/ml/metrics.py:distributed_mean"]}
{"id": "C72", "title": "No axis is special: relabelling the axes relabels the result", "statement": "On a periodic grid the finite-volume solver treats all axes alike: if the axes of the grid and of every array, and the components of the velocity, are permuted, then differences, Laplacian, divergence, diffusion, interpolation (linear, upwind, Lax-Wendroff, limited), linear, upwind and limited van Leer advection, convection, semi-Lagrangian advection, pressure projection and diffusion solves (with exact solvers), and whole Navier-Stokes steps return the permuted result, and return exactly when the original call does. Hence trajectories of the default solver commute with exchanging axes for any number of steps, and a state with a diagonal symmetry keeps it. kolmogorov_forcing(swap_xy=True) is kolmogorov_forcing on the transposed grid. advect_van_leer is an exception on data that is not at the cell centres (recorded as defect). Between Dirichlet and Neumann walls (any mixture with periodic directions, with any wall values) the same holds of differences, Laplacian, explicit diffusion, divergence and of the pressure projection, with its default solver in a closed box.", "quantifier": "every dimension, permutation of the axes, grid (any spacings and sizes), periodic state, time step, density, viscosity, tableau and number of steps", "why_tests_cant": "a test compares one transposed run with one run on one, usually square, grid; an index or spacing taken from the wrong axis shows only on some grids and fields", "anchors": ["jax_cfd/base/finite_differences.py:laplacian", "jax_cfd/base/finite_differences.py:divergence", "jax_cfd/base/interpolation.py:linear", "jax_cfd/base/interpolation.py:apply_tvd_limiter", "jax_cfd/base/advection.py:_advect_aligned", "jax_cfd/base/advection.py:advect_van_leer", "jax_cfd/base/pressure.py:projection", "jax_cfd/base/equations.py:semi_implicit_navier_stokes", "jax_cfd/base/forcings.py:kolmogorov_forcing"]}
{"id": "C73", "title": "The stencils approximate the derivatives they are named after, at the place they are labelled with", "statement": "Let an array hold the values of a smooth periodic function at its grid points (position = lower + (i + offset) * step). Then forward_difference, backward_difference and central_difference agree with the partial derivative at the positions given by the offset of the result up to M h^2/24, M h^2/24 and M h^2/6 (M a bound of the third derivative), laplacian with the sum of the second derivatives up to the sum of M h^2/12, divergence and curl_2d of staggered velocities with the divergence and the curl, diffuse with nu times the Laplacian, linear interpolation to any offset with the function itself up to the sum of M h^2/8, advect_linear with -div(v c) and convect_linear with -div(v v) to second order (hence also the explicit terms of the Navier-Stokes step), and advect_upwind, the two van Leer schemes and the default convection of the solver (van Leer, for every time step within the CFL condition) to first order. The bounds are explicit and hold for every resolution. Between walls, for functions that obey the boundary conditions: the divergence of staggered velocities keeps its second-order bound in every cell, also at the walls; the Laplacian keeps its bound except next to walls that lie half a cell from the data, where its error is of first order at Neumann walls and a quarter of the second derivative, at every resolution, at Dirichlet walls.", "quantifier": "all smooth functions (periodic, or obeying the wall conditions) with bounded derivatives, all resolutions and domains, all axes and offsets, all dimensions", "why_tests_cant": "the error bound must hold for every smooth function and every resolution; tests evaluate a few functions on a few grids", "anchors": ["jax_cfd/base/finite_differences.py:forward_difference", "jax_cfd/base/finite_differences.py:backward_difference", "jax_cfd/base/finite_differences.py:central_difference", "jax_cfd/base/finite_differences.py:laplacian", "jax_cfd/base/finite_differences.py:divergence", "jax_cfd/base/finite_differences.py:curl_2d", "jax_cfd/base/interpolation.py:linear", "jax_cfd/base/diffusion.py:diffuse", "jax_cfd/base/advection.py:advect_linear", "jax_cfd/base/advection.py:advect_upwind"]}
{"id": "C74", "title": "Simulations converge to the solution of the differential equation", "statement": "If a smooth periodic function of time and space solves the heat equation, then repeated explicit Euler steps with diffuse, started within eps of it, stay within eps + t (T dt/2 + nu sum M h^2/12) of it for as many steps as one likes, provided dt is at most the step recommended by diffusion.stable_time_step (more generally 2 nu dt sum 1/h^2 <= 1); implicit diffusion solves satisfy the same bound for every dt. Between Dirichlet and Neumann walls explicit diffusion converges as well when 3 nu dt sum 1/h^2 <= 1: inside the domain the error stays within max(eps, M2 h^2/8) plus the same growth, plus nu M3 h/24 per unit of time for every Neumann wall, although next to Dirichlet walls the Laplacian itself is not consistent; implicit solves between walls satisfy the same bound for every dt. Explicit upwind advection by a discretely divergence-free velocity converges to the solution of the transport equation with an error of first order in dt and h as long as the outflow of no cell exceeds its content in one step, and semi-Lagrangian advection by a uniform velocity converges for every time step, each step adding at most the error of one interpolation.", "quantifier": "all smooth solutions, all resolutions, time steps within the stated limit, numbers of steps, initial errors and dimensions", "why_tests_cant": "convergence is a statement about the limit of infinitely many grids and arbitrarily many steps", "anchors": ["jax_cfd/base/diffusion.py:diffuse", "jax_cfd/base/diffusion.py:stable_time_step", "jax_cfd/base/diffusion.py:solve_cg", "jax_cfd/base/diffusion.py:solve_fast_diag", "jax_cfd/base/advection.py:advect_upwind", "jax_cfd/base/advection.py:advect_step_semilagrangian"]}
{"id": "C75", "title": "Order of convergence of the time steppers", "statement": "For an initial value problem with a smooth solution and a right hand side that is smooth near it, repeated steps started within eps of the solution stay within exp(L t) (eps + t C dt^p) of it, for as many steps as the bound stays inside the neighbourhood: p = 1 for forward_euler, 2 for midpoint_rk2 and heun_rk2, 4 for classic_rk4, each also with the linear pressure projection applied after every stage, where the limit solves the projected equation; p = 1 for backward_forward_euler and 2 for crank_nicolson_rk2, with a linear dissipative implicit term of any stiffness, whose size enters neither L nor C except through the derivatives of the solution; and p = 2 for imex_runge_kutta with any tableau that satisfies the conditions of second order, in particular imex_rk_sil3, and for crank_nicolson_rk3, with bounded linear implicit terms. imex_rk_sil3 does not have the documented third order for nonlinear explicit terms (recorded defect).", "quantifier": "all normed spaces of states, all right hand sides and solutions with bounded derivatives, all linear projections, all step sizes and numbers of steps within the stated bound", "why_tests_cant": "Order is a statement about all right hand sides and the limit of small steps; a wrong coefficient can keep an individual run plausible while losing an order.", "anchors": ["jax_cfd/base/time_stepping.py:forward_euler, midpoint_rk2, heun_rk2, classic_rk4", "jax_cfd/spectral/time_stepping.py:backward_forward_euler, crank_nicolson_rk2, crank_nicolson_rk3, imex_runge_kutta, imex_rk_sil3"]}
{"id": "C76", "title": "The projection method converges to the solution of the Navier-Stokes equations", "statement": "The pressure projection with an exact solver computes the Helmholtz decomposition to second order: applied to samples of V + grad Q with V divergence-free it returns V up to an error (root mean square over the cells) of order h^2. Let a smooth periodic velocity and pressure solve the incompressible Navier-Stokes equations with a steady forcing. A run of semi_implicit_navier_stokes with convect_linear, diffuse, forward Euler and an exact pressure solver never fails, and, started from a divergence-free velocity, its root mean square error after n steps is at most exp(d G t) (initial error + t (C1 dt + C2 h^2)) + C3 h^2 with explicit constants, as long as dt (4 nu^2 sum 1/h^2 + d U^2) <= nu, where U bounds the exact and the computed speeds; the computed speeds need not be assumed bounded if the error bound times the square root of the number of cells is below the margin between U and the exact speeds. A run of implicit_diffusion_navier_stokes with convect_linear and exact pressure and diffusion solvers converges in the same sense, as long as dt d U^2 <= 2 nu, whatever the mesh size, to the equations with kinematic viscosity `viscosity` (not viscosity / density). In both cases, on a sequence of grids and step sizes for which the initial error, dt and h^2 times the square root of the number of cells tend to zero, the computed velocities converge to the solution uniformly in space and for all times up to a given time.", "quantifier": "all dimensions, periodic grids, smooth solutions of the equations, densities, viscosities, steady forcings, exact pressure solvers, initial velocities, step sizes within the restriction and numbers of steps", "why_tests_cant": "Convergence is a statement about all solutions, resolutions and numbers of steps; a test compares one run with one reference.", "anchors": ["jax_cfd/base/equations.py:semi_implicit_navier_stokes, implicit_diffusion_navier_stokes, _wrap_term_as_vector", "jax_cfd/base/diffusion.py:solve_fast_diag", "jax_cfd/base/advection.py:convect_linear, advect_linear", "jax_cfd/base/pressure.py:projection", "jax_cfd/base/diffusion.py:diffuse", "jax_cfd/base/time_stepping.py:forward_euler"]}
{"id": "C77", "title": "No hidden units", "statement": "Let all lengths be measured in a unit l times smaller, times in a unit tau times smaller, densities in a unit rho times smaller and a transported quantity in a unit m times smaller (boundary values and Neumann slopes included). Then impose_bc, shift, the difference operators, laplacian, divergence, curl, linear, upwind, Lax-Wendroff and flux-limited interpolation, advection, semi-Lagrangian advection, convect_linear and the default convection, diffusion, the pressure projection with any exact solver, the forcings (linear, Kolmogorov, filtered, sums), the Smagorinsky acceleration, every Runge-Kutta step and trajectory, and the stable and dynamic time steps return exactly the same result in the new units (velocities scale by l/tau, accelerations by l/tau^2, viscosities by rho l^2/tau, time steps by tau). The one absolute constant in the default solver, the cutoff of pseudoinverse, does not matter as long as the domain is shorter than 1/sqrt(cutoff) in both systems; but in every small enough unit of length the default projection does not change the velocity at all.", "quantifier": "all dimensions, grids, fields, all boundary conditions with given values for the operators, periodic fields for limited advection and default steps, all positive factors, all limiters, exact solvers, Runge-Kutta steppers and numbers of steps", "why_tests_cant": "Dimensional consistency is a statement about all pairs of runs in all unit systems; tests run in one.", "anchors": ["jax_cfd/base/boundaries.py:ConstantBoundaryConditions", "jax_cfd/base/finite_differences.py:forward_difference, backward_difference, central_difference, laplacian, divergence, curl_2d, curl_3d", "jax_cfd/base/interpolation.py:linear, upwind, lax_wendroff, apply_tvd_limiter", "jax_cfd/base/advection.py:advect_van_leer, convect_linear", "jax_cfd/base/diffusion.py:diffuse, stable_time_step", "jax_cfd/base/equations.py:semi_implicit_navier_stokes, stable_time_step", "jax_cfd/base/pressure.py:projection, solve_fast_diag", "jax_cfd/base/fast_diagonalization.py:pseudoinverse", "jax_cfd/base/forcings.py:linear_forcing, kolmogorov_forcing, filtered_linear_forcing", "jax_cfd/base/subgrid_models.py:smagorinsky_viscosity, explicit_smagorinsky_navier_stokes"]}
{"id": "C78", "title": "Reflection symmetry", "statement": "Reflect a periodic velocity field in a mirror normal to one axis: its component along the axis changes sign and every value moves to the mirror image of its position. Then the divergence, the diffusion of any even or odd quantity, linear interpolation, the van Leer and semi-Lagrangian advection, convect_linear and the default convection, the pressure projection with any exact solver, an exact implicit diffusion solve, the linear forcing, Kolmogorov forcing (whose mirror images in either of the first two directions have the opposite sign), sums of forcings, an explicit Runge-Kutta Navier-Stokes step, an implicit-diffusion step and any number of steps of the default solver give exactly the mirror images of their results (including the exceptions raised). A flow that is its own mirror image therefore stays so for ever, and the flow through the mirror is zero at every step; Kolmogorov flow is symmetric under half turns. For a flow between two walls and a mirror in the middle between them (which exchanges the walls and the values they prescribe) the Laplacian and explicit diffusion of any quantity, the divergence and the pressure projection commute with the reflection, although the code stores the upper wall faces and not the lower ones.", "quantifier": "all dimensions, grids, axes, periodic velocity fields, viscosities, densities, time steps, exact solvers, Runge-Kutta steppers, numbers of steps", "why_tests_cant": "Symmetry of the scheme is a statement about all pairs of runs; a one-sided stencil or a wrong branch of an upwind limiter breaks it only on some data.", "anchors": ["jax_cfd/base/advection.py:advect_van_leer_using_limiters, advect_step_semilagrangian, convect_linear", "jax_cfd/base/interpolation.py:lax_wendroff, apply_tvd_limiter, linear", "jax_cfd/base/finite_differences.py:laplacian, divergence", "jax_cfd/base/diffusion.py:diffuse", "jax_cfd/base/pressure.py:projection", "jax_cfd/base/equations.py:semi_implicit_navier_stokes, implicit_diffusion_navier_stokes", "jax_cfd/base/time_stepping.py:navier_stokes_rk", "jax_cfd/base/funcutils.py:repeated"]}
