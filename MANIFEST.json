{
 "claims": [
  {
   "property": "C01",
   "status": "proved",
   "theorems": [
    "JaxCfd.C01_grid_succeeds_iff",
    "JaxCfd.C01_grid_errors",
    "JaxCfd.C01_grid_invariant"
   ],
   "note": "Case analysis over the argument combinations of the constructor; a success criterion (iff), the error kinds, and the invariant of every grid returned. Grid of size 0 along an axis raises ZeroDivisionError only where the step is used."
  },
  {
   "property": "C02",
   "status": "proved",
   "theorems": [
    "JaxCfd.C02_axes_error_iff",
    "JaxCfd.C02_axes_points",
    "JaxCfd.C02_axes_increasing",
    "JaxCfd.C02_axes_in_domain",
    "JaxCfd.C02_cell_centers_symmetric",
    "JaxCfd.C02_mesh",
    "JaxCfd.C02_eval_on_mesh",
    "JaxCfd.C02_domain_interior_masks"
   ],
   "note": "List computation; ordered-field inequalities."
  },
  {
   "property": "C03",
   "status": "proved",
   "theorems": [
    "JaxCfd.C03_ufunc_ok_iff",
    "JaxCfd.C03_ufunc_errors"
   ],
   "note": "`__array_ufunc__` and `applied` as one function of a list of operands; iff for success, priority of the errors. Broadcasting inside the ufunc is not modelled."
  },
  {
   "property": "C04",
   "status": "proved",
   "theorems": [
    "JaxCfd.C04_unique",
    "JaxCfd.C04_unique_set"
   ],
   "note": "List reasoning: success iff the list is nonempty and constant; invariance under equal sets of arguments."
  },
  {
   "property": "C05",
   "status": "proved",
   "theorems": [
    "JaxCfd.C05_difference_offsets",
    "JaxCfd.C05_control_volume_offsets",
    "JaxCfd.C05_averaged_offset"
   ],
   "note": "Rational arithmetic on offsets, tied to the outputs of the difference operators."
  },
  {
   "property": "C06",
   "status": "proved",
   "theorems": [
    "JaxCfd.C06_variable_rank_check",
    "JaxCfd.PyTree.C06_roundtrip",
    "JaxCfd.PyTree.C06_unflatten",
    "JaxCfd.PyTree.C06_lossless",
    "JaxCfd.PyTree.C06_tree_map",
    "JaxCfd.PyTree.C06_tree_map_laws",
    "JaxCfd.PyTree.C06_leaf_count",
    "JaxCfd.PyTree.C06_tree_map2",
    "JaxCfd.PyTree.C06_variables",
    "JaxCfd.PyTree.C06_variable_check",
    "JaxCfd.PyTree.C06_tensor",
    "JaxCfd.PyTree.C06_model_variables"
   ],
   "note": "Pytrees as an inductive type with the three registered nodes; structural induction."
  },
  {
   "property": "C07",
   "status": "proved",
   "theorems": [
    "JaxCfd.C07_periodic_shift_is_roll",
    "JaxCfd.C07_periodic_shift_add",
    "JaxCfd.C07_periodic_shift_comm",
    "JaxCfd.C07_periodic_shift_period"
   ],
   "note": "`roll` as `Int.emod` index algebra; all integers k, all axes."
  },
  {
   "property": "C08",
   "status": "proved",
   "theorems": [
    "JaxCfd.C08_shift_shape_and_offset",
    "JaxCfd.C08_far_offset_changes_shape"
   ],
   "note": "Case analysis over `_pad`/`_trim` for every boundary type and mode; the exception (array beyond the upper wall) is proved to be real."
  },
  {
   "property": "C09",
   "status": "proved",
   "theorems": [
    "JaxCfd.C09_dirichlet_center_lower",
    "JaxCfd.C09_dirichlet_center_upper",
    "JaxCfd.C09_dirichlet_center_lower_extend",
    "JaxCfd.C09_dirichlet_center_upper_extend"
   ],
   "note": "`jnp.pad` modes index by index; any width for MIRROR."
  },
  {
   "property": "C10",
   "status": "proved",
   "theorems": [
    "JaxCfd.C10_dirichlet_edge_lower",
    "JaxCfd.C10_dirichlet_edge_upper",
    "JaxCfd.C10_dirichlet_edge_lower_mirror",
    "JaxCfd.C10_dirichlet_edge_lower_odd",
    "JaxCfd.C10_mirror_not_odd"
   ],
   "note": "As C09; the failure of odd reflection for a non-zero wall value is proved."
  },
  {
   "property": "C11",
   "status": "proved",
   "theorems": [
    "JaxCfd.C11_neumann_lower",
    "JaxCfd.C11_neumann_upper",
    "JaxCfd.C11_neumann_wide_upper",
    "JaxCfd.C11_neumann_wide_lower",
    "JaxCfd.C11_neumann_edge_rejected"
   ],
   "note": "As C09; wider paddings are characterised exactly (they are not the linear extrapolation)."
  },
  {
   "property": "C12",
   "status": "proved",
   "theorems": [
    "JaxCfd.C12_impose_bc",
    "JaxCfd.C12_impose_bc_idempotent",
    "JaxCfd.C12_impose_bc_identity",
    "JaxCfd.C12_fixed_scale_gridvar"
   ],
   "note": "Fold over axes with an invariant; idempotence from the characterisation."
  },
  {
   "property": "C13",
   "status": "proved",
   "theorems": [
    "JaxCfd.C13_pad_int_shape",
    "JaxCfd.C13_pad_pair_shape",
    "JaxCfd.C13_pad_all_shape",
    "JaxCfd.C13_trim_pad_interior",
    "JaxCfd.C13_pad_pair_periodic"
   ],
   "note": "Index algebra for every boundary type, sign and pair of widths."
  },
  {
   "property": "C14",
   "status": "proved",
   "theorems": [
    "JaxCfd.C14_trim_boundary",
    "JaxCfd.C14_trim_boundary_idempotent"
   ],
   "note": "The kept entries are characterised by position; idempotence follows."
  },
  {
   "property": "C15",
   "status": "proved",
   "theorems": [
    "JaxCfd.C15_constructor_types",
    "JaxCfd.C15_constructor_values",
    "JaxCfd.C15_values",
    "JaxCfd.C15_channel_length",
    "JaxCfd.C15_mixed_types",
    "JaxCfd.C15_has_all_periodic",
    "JaxCfd.C15_consistent_iff",
    "JaxCfd.C15_consistent_error",
    "JaxCfd.C15_pressure_bc"
   ],
   "note": "Lists of type pairs; iff for the consistency check."
  },
  {
   "property": "C16",
   "status": "proved",
   "theorems": [
    "JaxCfd.C16_flux_bc"
   ],
   "note": "Exhaustive characterisation (iff) of acceptance and of the result."
  },
  {
   "property": "C17",
   "status": "proved",
   "theorems": [
    "JaxCfd.C17_differences_sum_zero",
    "JaxCfd.C17_divergence_sum_zero",
    "JaxCfd.C17_divergence_succeeds_iff"
   ],
   "note": "Re-indexing finite sums by the cyclic shift; any dimension."
  },
  {
   "property": "C18",
   "status": "proved",
   "theorems": [
    "JaxCfd.C18_laplacian_is_div_grad",
    "JaxCfd.C18_laplacian_symmetric",
    "JaxCfd.C18_laplacian_dissipative",
    "JaxCfd.C18_laplacian_kernel"
   ],
   "note": "Summation by parts; kernel by connectivity of the torus."
  },
  {
   "property": "C19",
   "status": "proved",
   "theorems": [
    "JaxCfd.C19_forward_differences_commute",
    "JaxCfd.C19_curl2d_grad",
    "JaxCfd.C19_curl3d_grad",
    "JaxCfd.C19_div_curl3d",
    "JaxCfd.C19_divergence_of_curl3d_rejected"
   ],
   "note": "Commuting rolls."
  },
  {
   "property": "C20",
   "status": "proved",
   "theorems": [
    "JaxCfd.C20_stencils",
    "JaxCfd.C20_linear",
    "JaxCfd.C20_exact",
    "JaxCfd.C20_gradient_tensor",
    "JaxCfd.C20_gradient_tensor_face",
    "JaxCfd.C20_gradient_tensor_rejects",
    "JaxCfd.C20_gradient_tensor_corner"
   ],
   "note": "Stencil formulas for every axis, then field algebra; gradient tensor in all dimensions, with the corner-data defect."
  },
  {
   "property": "C21",
   "status": "proved",
   "theorems": [
    "JaxCfd.C21_summation_by_parts",
    "JaxCfd.C21_divergence_adjoint"
   ],
   "note": "Re-indexing of sums."
  },
  {
   "property": "C22",
   "status": "proved",
   "theorems": [
    "JaxCfd.C22_stencils",
    "JaxCfd.C22_neumann_sum_zero",
    "JaxCfd.C22_neumann_constants",
    "JaxCfd.C22_laplacian_symmetric",
    "JaxCfd.C22_dirichlet_definite",
    "JaxCfd.C22_closed_box_divergence"
   ],
   "note": "One-dimensional stencils with ghost cells, telescoping; any mixture of periodic and wall axes, any dimension."
  },
  {
   "property": "C23",
   "status": "proved",
   "theorems": [
    "JaxCfd.C23_own_offset",
    "JaxCfd.C23_offset_and_bc",
    "JaxCfd.C23_integer_is_shift",
    "JaxCfd.C23_convex_combination",
    "JaxCfd.C23_upper_faces_walls",
    "JaxCfd.C23_constants",
    "JaxCfd.C23_bounds"
   ],
   "note": "Fold over axes; weights in [0,1]; bounds by convexity."
  },
  {
   "property": "C24",
   "status": "proved",
   "theorems": [
    "JaxCfd.C24_upwind_dispatch",
    "JaxCfd.C24_upwind_value",
    "JaxCfd.C24_upwind_range"
   ],
   "note": "Pointwise case split on the sign of the velocity."
  },
  {
   "property": "C25",
   "status": "proved",
   "theorems": [
    "JaxCfd.C25_van_leer",
    "JaxCfd.C25_lax_wendroff",
    "JaxCfd.C25_limited_value"
   ],
   "note": "Field algebra and order reasoning on the limiter."
  },
  {
   "property": "C26",
   "status": "proved",
   "theorems": [
    "JaxCfd.C26_van_leer_between",
    "JaxCfd.C26_ml_modules"
   ],
   "note": "Convex combination with the Courant number bounded by 1."
  },
  {
   "property": "C27",
   "status": "proved",
   "theorems": [
    "JaxCfd.C27_conservation",
    "JaxCfd.C27_linear_keeps_periodic",
    "JaxCfd.C27_convect_linear",
    "JaxCfd.C27_upwind_keeps_periodic",
    "JaxCfd.C27_limited_keeps_periodic",
    "JaxCfd.C27_schemes_conserve",
    "JaxCfd.C27_non_periodic_rejected",
    "JaxCfd.C27_van_leer_implementations_agree",
    "JaxCfd.C27_van_leer_staggered_defect"
   ],
   "note": "Telescoping fluxes; the interpolation is an arbitrary function that keeps periodic variables; then each scheme of the code is shown to be one."
  },
  {
   "property": "C28",
   "status": "proved",
   "theorems": [
    "JaxCfd.C28_constant"
   ],
   "note": "Algebra from the face-flux form."
  },
  {
   "property": "C29",
   "status": "proved",
   "theorems": [
    "JaxCfd.C29_energy"
   ],
   "note": "Summation by parts."
  },
  {
   "property": "C30",
   "status": "proved",
   "theorems": [
    "JaxCfd.C30_upwind_maximum_principle"
   ],
   "note": "Convex combination per cell."
  },
  {
   "property": "C31",
   "status": "proved",
   "theorems": [
    "JaxCfd.C31_courant",
    "JaxCfd.C31_advective_errors",
    "JaxCfd.C31_diffusion_step",
    "JaxCfd.C31_equations_step",
    "JaxCfd.C31_equations_step_sound",
    "JaxCfd.C31_dynamic_time_step",
    "JaxCfd.C31_upwind_stable",
    "JaxCfd.C31_diffusion_maximum_principle",
    "JaxCfd.C31_diffusion_l2_stable",
    "JaxCfd.C31_dirichlet_cells_no_maximum_principle"
   ],
   "note": "Order reasoning; energy estimate for the L2 statement; a counterexample where the maximum principle fails (cell-centred Dirichlet walls)."
  },
  {
   "property": "C32",
   "status": "proved",
   "theorems": [
    "JaxCfd.C32_departure_point",
    "JaxCfd.C32_maximum_principle",
    "JaxCfd.C32_succeeds",
    "JaxCfd.C32_rejections",
    "JaxCfd.C32_integer_courant"
   ],
   "note": "`map_coordinates` weights are nonnegative and sum to one."
  },
  {
   "property": "C33",
   "status": "proved",
   "theorems": [
    "JaxCfd.C33_residual",
    "JaxCfd.C33_unimposed_walls",
    "JaxCfd.C33_divergence_free",
    "JaxCfd.C33_fixes_divergence_free",
    "JaxCfd.C33_idempotent",
    "JaxCfd.C33_energy",
    "JaxCfd.C33_solver_independent"
   ],
   "note": "The solver is a parameter: residual identity for every solver, exactness for exact ones; energy identity by adjointness. `solver_independent`: two exact solvers give the same velocity."
  },
  {
   "property": "C34",
   "status": "proved",
   "theorems": [
    "JaxCfd.C34_periodic",
    "JaxCfd.C34_size_two_defect",
    "JaxCfd.C34_matches_laplacian",
    "JaxCfd.C34_rejects_neumann_faces"
   ],
   "note": "Matrix entries by index arithmetic; sizes 0, 1 and 2 treated exactly as the code does."
  },
  {
   "property": "C35",
   "status": "proved",
   "theorems": [
    "JaxCfd.C35_function_of_operator",
    "JaxCfd.C35_polynomial_exists",
    "JaxCfd.C35_identity_function",
    "JaxCfd.C35_composition",
    "JaxCfd.C35_implementations_agree",
    "JaxCfd.C35_pseudoinverse",
    "JaxCfd.C35_inverse",
    "JaxCfd.C35_complex_hermitian_defect"
   ],
   "note": "Tensor-product linear algebra over an arbitrary list of eigendecompositions; polynomials through all sums of eigenvalues."
  },
  {
   "property": "C36",
   "status": "proved",
   "theorems": [
    "JaxCfd.C36_diffusion_layout",
    "JaxCfd.C36_diffusion_lower_walls",
    "JaxCfd.C36_diffusion",
    "JaxCfd.C36_diffusion_max_principle",
    "JaxCfd.C36_diffusion_unique",
    "JaxCfd.C36_diffusion_rejects",
    "JaxCfd.C36_diffusion_cg_rejects",
    "JaxCfd.C36_diffusion_axis0_defect",
    "JaxCfd.C36_pressure_poisson",
    "JaxCfd.C36_pressure_succeeds",
    "JaxCfd.C36_projection_default",
    "JaxCfd.C36_projection_divergence_free",
    "JaxCfd.C36_channel_flow"
   ],
   "note": "C34 + C35 + boundary values moved to the right-hand side; `eigh`/FFT are hypothesised exact."
  },
  {
   "property": "C37",
   "status": "proved",
   "theorems": [
    "JaxCfd.C37_default",
    "JaxCfd.C37_rejects_non_square",
    "JaxCfd.C37_requirements",
    "JaxCfd.C37_rejects_shape",
    "JaxCfd.C37_rfft_shape_unchecked"
   ],
   "note": "Decision table, iff."
  },
  {
   "property": "C38",
   "status": "proved",
   "theorems": [
    "JaxCfd.C38_textbook",
    "JaxCfd.C38_inconsistent_tableau",
    "JaxCfd.C38_short_row",
    "JaxCfd.C38_projected",
    "JaxCfd.C38_forward_euler",
    "JaxCfd.C38_midpoint",
    "JaxCfd.C38_heun",
    "JaxCfd.C38_classic_rk4",
    "JaxCfd.C38_steady",
    "JaxCfd.C38_linear_invariant",
    "JaxCfd.C38_linear",
    "JaxCfd.C38_quadrature"
   ],
   "note": "Induction over stages for an arbitrary tableau; closed forms of the named ones."
  },
  {
   "property": "C39",
   "status": "proved",
   "theorems": [
    "JaxCfd.C39_textbook",
    "JaxCfd.C39_textbook_unique",
    "JaxCfd.C39_inconsistent_tableau",
    "JaxCfd.C39_backward_forward_euler",
    "JaxCfd.C39_crank_nicolson_rk2",
    "JaxCfd.C39_low_storage",
    "JaxCfd.C39_length_check_defect",
    "JaxCfd.C39_steady",
    "JaxCfd.C39_schemes_steady",
    "JaxCfd.C39_rk4_coefficients",
    "JaxCfd.C39_sil3",
    "JaxCfd.C39_explicit_linear",
    "JaxCfd.C39_dissipative",
    "JaxCfd.C39_sil3_stable"
   ],
   "note": "As C38 for IMEX tableaux; stability by complex-norm estimates."
  },
  {
   "property": "C40",
   "status": "proved",
   "theorems": [
    "JaxCfd.C40_repeated",
    "JaxCfd.C40_repeated_laws",
    "JaxCfd.C40_trajectory",
    "JaxCfd.C40_trajectory_restart",
    "JaxCfd.C40_trajectory_subsampled",
    "JaxCfd.C40_calls",
    "JaxCfd.C40_init_repeated",
    "JaxCfd.C40_init_trajectory",
    "JaxCfd.C40_frame_count",
    "JaxCfd.C40_init_first_frame",
    "JaxCfd.C40_init_context"
   ],
   "note": "Induction on the number of steps; `init_context` as a mode of `scan`, nested to any depth."
  },
  {
   "property": "C41",
   "status": "proved",
   "theorems": [
    "JaxCfd.C41_normalize_axis",
    "JaxCfd.C41_split_defined",
    "JaxCfd.C41_split_concat",
    "JaxCfd.C41_concat_split",
    "JaxCfd.C41_split_axis_concat",
    "JaxCfd.C41_unstack",
    "JaxCfd.C41_split_axis_rejects"
   ],
   "note": "Index algebra for every axis, including negative ones."
  },
  {
   "property": "C42",
   "status": "proved",
   "theorems": [
    "JaxCfd.C42_blocks",
    "JaxCfd.C42_rejects",
    "JaxCfd.C42_total"
   ],
   "note": "Row-major reshape arithmetic; sum re-indexing."
  },
  {
   "property": "C43",
   "status": "proved",
   "theorems": [
    "JaxCfd.C43_sorted",
    "JaxCfd.C43_unsorted",
    "JaxCfd.C43_nodes",
    "JaxCfd.C43_bounds",
    "JaxCfd.C43_affine",
    "JaxCfd.C43_accepts",
    "JaxCfd.C43_unsorted_size_unchecked"
   ],
   "note": "`searchsorted`/`argsort` by specification; order reasoning."
  },
  {
   "property": "C44",
   "status": "proved",
   "theorems": [
    "JaxCfd.C44_qr",
    "JaxCfd.C44_qr_unique",
    "JaxCfd.C44_no_columns"
   ],
   "note": "Induction over columns."
  },
  {
   "property": "C45",
   "status": "proved",
   "theorems": [
    "JaxCfd.C45_component",
    "JaxCfd.C45_rejects",
    "JaxCfd.C45_divergence",
    "JaxCfd.C45_divergence_free",
    "JaxCfd.C45_anisotropic_defect",
    "JaxCfd.C45_staggered_rejects"
   ],
   "note": "Block sums; telescoping of fluxes through fine faces."
  },
  {
   "property": "C46",
   "status": "proved",
   "theorems": [
    "JaxCfd.C46_fftfreq",
    "JaxCfd.C46_truncate_pad",
    "JaxCfd.C46_even_size_defect",
    "JaxCfd.C46_dealias",
    "JaxCfd.C46_truncate_pad_2x",
    "JaxCfd.C46_padded_interpolates",
    "JaxCfd.C46_cubic_dealias",
    "JaxCfd.C46_brick_wall_mask",
    "JaxCfd.C46_brick_wall_mean",
    "JaxCfd.C46_brick_wall_cutoff",
    "JaxCfd.C46_circular_filter",
    "JaxCfd.C46_circular_keeps",
    "JaxCfd.C46_circular_mean",
    "JaxCfd.C46_downsample_spectral",
    "JaxCfd.C46_downsample_spectral_odd_defect"
   ],
   "note": "Discrete Fourier analysis from the defining sums (orthogonality of characters)."
  },
  {
   "property": "C47",
   "status": "proved",
   "theorems": [
    "JaxCfd.C47_divergence_free",
    "JaxCfd.C47_curl",
    "JaxCfd.C47_left_inverse",
    "JaxCfd.C47_energy"
   ],
   "note": "Mode-by-mode complex algebra."
  },
  {
   "property": "C48",
   "status": "proved",
   "theorems": [
    "JaxCfd.C48_ks_solve",
    "JaxCfd.C48_ks_singular",
    "JaxCfd.C48_burgers_solve",
    "JaxCfd.C48_ns_solve",
    "JaxCfd.C48_nls_solve",
    "JaxCfd.C48_ks_explicit",
    "JaxCfd.C48_ks_size_defect",
    "JaxCfd.C48_ks_energy",
    "JaxCfd.C48_burgers_explicit",
    "JaxCfd.C48_burgers_energy",
    "JaxCfd.C48_ns_smooth_false_defect",
    "JaxCfd.C48_ns_filtered",
    "JaxCfd.C48_nls_mass",
    "JaxCfd.C48_nls_implicit_mass",
    "JaxCfd.C48_ns_explicit",
    "JaxCfd.C48_ns_conserves",
    "JaxCfd.C48_ns_forcing"
   ],
   "note": "Mode-by-mode algebra; conservation laws through Parseval and exact de-aliasing."
  },
  {
   "property": "C49",
   "status": "proved",
   "theorems": [
    "JaxCfd.C49_filter",
    "JaxCfd.C49_filter_mean",
    "JaxCfd.C49_filter_compose",
    "JaxCfd.C49_filter_one",
    "JaxCfd.C49_filtered_linear",
    "JaxCfd.C49_linear",
    "JaxCfd.C49_none",
    "JaxCfd.C49_sum",
    "JaxCfd.C49_sum_rejects",
    "JaxCfd.C49_kolmogorov",
    "JaxCfd.C49_kolmogorov_rank",
    "JaxCfd.C49_kolmogorov_divergence_free",
    "JaxCfd.C49_taylor_green",
    "JaxCfd.C49_taylor_green_3d",
    "JaxCfd.C49_taylor_green_divergence_free",
    "JaxCfd.C49_taylor_green_divergence_free_3d",
    "JaxCfd.C49_taylor_green_defect",
    "JaxCfd.C49_taylor_green_rank",
    "JaxCfd.C49_simple_turbulence",
    "JaxCfd.C49_simple_turbulence_rejects"
   ],
   "note": "Closed forms on meshes; trigonometric identities for the discrete divergence; filters through the FFT."
  },
  {
   "property": "C50",
   "status": "proved",
   "theorems": [
    "JaxCfd.C50_periodic_conv",
    "JaxCfd.C50_periodic_conv_centred",
    "JaxCfd.C50_periodic_conv_transpose",
    "JaxCfd.C50_conv_transpose_rejects",
    "JaxCfd.C50_space_to_batch",
    "JaxCfd.C50_round_trip",
    "JaxCfd.C50_round_trip_batch",
    "JaxCfd.C50_halo",
    "JaxCfd.C50_halo_too_wide",
    "JaxCfd.C50_rejects",
    "JaxCfd.C50_wrong_batch",
    "JaxCfd.C50_apply_convolution",
    "JaxCfd.C50_layout_independent",
    "JaxCfd.C50_translation_equivariant",
    "JaxCfd.C50_conv_valid",
    "JaxCfd.C50_convolution"
   ],
   "note": "Index algebra mod n; equality with the untiled computation for every tile layout."
  },
  {
   "property": "C51",
   "status": "proved",
   "theorems": [
    "JaxCfd.C51_roll_and_shift",
    "JaxCfd.C51_roll_zero_iff",
    "JaxCfd.C51_stencils",
    "JaxCfd.C51_stencil_symmetric",
    "JaxCfd.C51_extract_patches_roll",
    "JaxCfd.C51_extract_patches_conv",
    "JaxCfd.C51_methods_agree",
    "JaxCfd.C51_extract_patches_rejects",
    "JaxCfd.C51_fused_patches",
    "JaxCfd.C51_fused_rejects",
    "JaxCfd.C51_roll_defect"
   ],
   "note": "Index algebra; two implementations proved equal."
  },
  {
   "property": "C52",
   "status": "proved",
   "theorems": [
    "JaxCfd.C52_tower",
    "JaxCfd.C52_fused_layers",
    "JaxCfd.C52_fused_patches",
    "JaxCfd.C52_fused_rejects",
    "JaxCfd.C52_exponents",
    "JaxCfd.C52_constraints_finite_difference",
    "JaxCfd.C52_constraints_finite_volume",
    "JaxCfd.C52_constraints_reject",
    "JaxCfd.C52_constraints_succeed",
    "JaxCfd.C52_constraints_conflict",
    "JaxCfd.C52_coefficients_finite_difference",
    "JaxCfd.C52_coefficients_finite_volume",
    "JaxCfd.C52_constraint_layer_finite_difference",
    "JaxCfd.C52_constraint_layer_finite_volume",
    "JaxCfd.C52_constraint_layer_bias",
    "JaxCfd.C52_constraint_layer_zero",
    "JaxCfd.C52_constraint_layer_nonuniform",
    "JaxCfd.C52_negative_subspace_defect",
    "JaxCfd.C52_single_solution_refused",
    "JaxCfd.C52_spatial_derivative_finite_volume",
    "JaxCfd.C52_spatial_derivative_finite_difference",
    "JaxCfd.C52_spatial_derivative_rejects"
   ],
   "note": "Multivariate monomials; constraints ⇔ exactness on all polynomials below the order; SVD null space as a hypothesis."
  },
  {
   "property": "C53",
   "status": "proved",
   "theorems": [
    "JaxCfd.Train.C53_streaming_mean",
    "JaxCfd.Train.C53_order_independent",
    "JaxCfd.Train.C53_mean_bounds",
    "JaxCfd.Train.C53_train_steps",
    "JaxCfd.Train.C53_loss",
    "JaxCfd.Train.C53_eval_batch",
    "JaxCfd.Train.C53_preprocess",
    "JaxCfd.Train.C53_preprocess_end_defect",
    "JaxCfd.Train.C53_add_noise"
   ],
   "note": "Induction over the stream of batches."
  },
  {
   "property": "C54",
   "status": "proved",
   "theorems": [
    "JaxCfd.Metric.C54_l2_cumulative",
    "JaxCfd.Metric.C54_l2_single_step",
    "JaxCfd.Metric.C54_cumulative_is_running_sum",
    "JaxCfd.Metric.C54_l2_separates",
    "JaxCfd.Metric.C54_extra_components_ignored",
    "JaxCfd.Metric.C54_correlation",
    "JaxCfd.Metric.C54_correlation_bounded",
    "JaxCfd.Metric.C54_correlation_scale",
    "JaxCfd.Metric.C54_correlation_self",
    "JaxCfd.Metric.C54_correlation_axes_defect",
    "JaxCfd.Metric.C54_correlation_batch_defect"
   ],
   "note": "Finite sums, Cauchy–Schwarz."
  },
  {
   "property": "C55",
   "status": "proved",
   "theorems": [
    "JaxCfd.Collocated.C55_advect_linear",
    "JaxCfd.Collocated.C55_convect_linear",
    "JaxCfd.Collocated.C55_diffuse",
    "JaxCfd.Collocated.C55_diffuse_rejects",
    "JaxCfd.Collocated.C55_open_boundary_defect",
    "JaxCfd.Collocated.C55_projection",
    "JaxCfd.Collocated.C55_projection_cg",
    "JaxCfd.Collocated.C55_projection_rejects",
    "JaxCfd.Collocated.C55_projection_exact",
    "JaxCfd.Collocated.C55_projection_unique",
    "JaxCfd.Collocated.C55_projection_fixes",
    "JaxCfd.Collocated.C55_pressure_exists",
    "JaxCfd.Collocated.C55_checkerboard",
    "JaxCfd.Collocated.C55_exact_cg",
    "JaxCfd.Collocated.C55_conservative",
    "JaxCfd.Collocated.C55_step_divergence_free",
    "JaxCfd.Collocated.C55_step_momentum",
    "JaxCfd.Collocated.C55_default_step",
    "JaxCfd.Collocated.C55_default_trajectory",
    "JaxCfd.Collocated.C55_filtered_velocity_field"
   ],
   "note": "As C17–C33 on the collocated stencils; exact `cg` as a hypothesis."
  },
  {
   "property": "C56",
   "status": "proved",
   "theorems": [
    "JaxCfd.C56_impose_beyond_wall",
    "JaxCfd.C56_linear_convection_needs_periodic",
    "JaxCfd.C56_linear_steps_need_periodic",
    "JaxCfd.C56_steppers",
    "JaxCfd.C56_explicit_terms",
    "JaxCfd.C56_forward_euler_step",
    "JaxCfd.C56_step_is_projected",
    "JaxCfd.C56_forced_step",
    "JaxCfd.C56_forced_trajectory",
    "JaxCfd.C56_face_forcings",
    "JaxCfd.C56_default_diffusion",
    "JaxCfd.C56_implicit_step",
    "JaxCfd.C56_implicit_divergence_free",
    "JaxCfd.C56_implicit_default_step",
    "JaxCfd.C56_implicit_stokes_energy",
    "JaxCfd.C56_implicit_ignores_density",
    "JaxCfd.C56_default_solver",
    "JaxCfd.C56_divergence_free",
    "JaxCfd.C56_default_convection_conservative",
    "JaxCfd.C56_momentum",
    "JaxCfd.C56_default_step",
    "JaxCfd.C56_default_trajectory",
    "JaxCfd.C56_uniform_flow_steady",
    "JaxCfd.C56_wall_residual",
    "JaxCfd.C56_walls_divergence_free",
    "JaxCfd.C56_wall_tendency_defect",
    "JaxCfd.C56_default_convection_needs_periodic",
    "JaxCfd.Fixtures.C56_vortex_defect"
   ],
   "note": "Corollaries of C27–C38 for whole steps and trajectories, with the default arguments; wall defects by explicit counterexamples."
  },
  {
   "property": "C57",
   "status": "proved",
   "theorems": [
    "JaxCfd.C57_wrap_variables",
    "JaxCfd.C57_filtered_velocity_field",
    "JaxCfd.C57_initial_velocity_field",
    "JaxCfd.C57_initial_velocity_field_projected"
   ],
   "note": "The noise is arbitrary; projection and scaling lemmas."
  },
  {
   "property": "C58",
   "status": "proved",
   "theorems": [
    "JaxCfd.C58_values",
    "JaxCfd.C58_rejects",
    "JaxCfd.C58_exact_solution",
    "JaxCfd.C58_divergence",
    "JaxCfd.C58_divergence_free",
    "JaxCfd.C58_laplacian"
   ],
   "note": "Real analysis (derivatives) for the continuous solution, trigonometry for the discrete one."
  },
  {
   "property": "C59",
   "status": "proved",
   "theorems": [
    "JaxCfd.C59_walls",
    "JaxCfd.C59_evm",
    "JaxCfd.C59_constant",
    "JaxCfd.C59_smagorinsky_viscosity",
    "JaxCfd.C59_smagorinsky",
    "JaxCfd.C59_smagorinsky_covariant",
    "JaxCfd.C59_symmetric",
    "JaxCfd.C59_learned_tensor",
    "JaxCfd.C59_learned_scalar",
    "JaxCfd.C59_implicit",
    "JaxCfd.C59_implicit_smagorinsky",
    "JaxCfd.C59_operator_scaling",
    "JaxCfd.C59_frozen_spd",
    "JaxCfd.C59_explicit_terms",
    "JaxCfd.C59_explicit_forcing",
    "JaxCfd.C59_explicit_step",
    "JaxCfd.C59_explicit_succeeds",
    "JaxCfd.C59_implicit_divergence",
    "JaxCfd.C59_implicit_step",
    "JaxCfd.C59_gradient_viscosity",
    "JaxCfd.C59_gradient_galilean",
    "JaxCfd.C59_eddy_viscosity_default",
    "JaxCfd.C59_viscosity_scale",
    "JaxCfd.C59_implicit_module"
   ],
   "note": "Symmetric tensors, summation by parts; learned viscosities as parameters."
  },
  {
   "property": "C60",
   "status": "proved",
   "theorems": [
    "JaxCfd.ML.C60_trajectory",
    "JaxCfd.ML.C60_trajectory_succeeds",
    "JaxCfd.ML.C60_decoded",
    "JaxCfd.ML.C60_causal",
    "JaxCfd.ML.C60_loss",
    "JaxCfd.ML.C60_euler",
    "JaxCfd.ML.C60_time_derivative",
    "JaxCfd.ML.C60_euler_linear",
    "JaxCfd.ML.C60_identity"
   ],
   "note": "Induction over scans."
  },
  {
   "property": "C61",
   "status": "proved",
   "theorems": [
    "JaxCfd.ML.C61_aligned",
    "JaxCfd.ML.C61_aligned_empty",
    "JaxCfd.ML.C61_aligned_restart",
    "JaxCfd.ML.C61_collocated",
    "JaxCfd.ML.C61_slice_last",
    "JaxCfd.ML.C61_slice_last_axis",
    "JaxCfd.ML.C61_slice_last_n",
    "JaxCfd.ML.C61_time_axis_defect",
    "JaxCfd.ML.C61_stack_last_n",
    "JaxCfd.ML.C61_split",
    "JaxCfd.ML.C61_split_stack",
    "JaxCfd.ML.C61_aligned_latent_decoder",
    "JaxCfd.ML.C61_aligned_latent_encoder",
    "JaxCfd.ML.C61_latent_causal",
    "JaxCfd.ML.C61_spectral_roundtrip",
    "JaxCfd.ML.C61_vorticity_roundtrip",
    "JaxCfd.ML.C61_spectral_encode_decode",
    "JaxCfd.ML.C61_vorticity_velocity",
    "JaxCfd.ML.C61_odd_axis_defect",
    "JaxCfd.ML.C61_spectral_arguments",
    "JaxCfd.ML.C61_decoder_solenoidal"
   ],
   "note": "Composition of the modelled pieces; FFT round trips."
  },
  {
   "property": "C62",
   "status": "proved",
   "theorems": [
    "JaxCfd.ML.C62_flux_divergence",
    "JaxCfd.ML.C62_flux_channels",
    "JaxCfd.ML.C62_corrector",
    "JaxCfd.ML.C62_divergence",
    "JaxCfd.ML.C62_zero_correction",
    "JaxCfd.ML.C62_flux_corrector_conserves",
    "JaxCfd.ML.C62_velocity_corrector",
    "JaxCfd.ML.C62_process_default_defect",
    "JaxCfd.ML.C62_neighbors"
   ],
   "note": "Telescoping of the learned flux."
  },
  {
   "property": "C63",
   "status": "proved",
   "theorems": [
    "JaxCfd.ML.C63_construct",
    "JaxCfd.ML.C63_fused_equals_split",
    "JaxCfd.ML.C63_interpolation",
    "JaxCfd.ML.C63_individual",
    "JaxCfd.ML.C63_learned_advection",
    "JaxCfd.ML.C63_centred_scalar_defect",
    "JaxCfd.ML.C63_modular_step",
    "JaxCfd.ML.C63_modular_unforced",
    "JaxCfd.ML.C63_modular_explicit",
    "JaxCfd.ML.C63_with_linear",
    "JaxCfd.ML.C63_stencils",
    "JaxCfd.ML.C63_lookup",
    "JaxCfd.ML.C63_same_offset_defect"
   ],
   "note": "C52 applied to the interpolation network; conservation by C27."
  },
  {
   "property": "C64",
   "status": "proved",
   "theorems": [
    "JaxCfd.C64_circulation",
    "JaxCfd.C64_damping",
    "JaxCfd.C64_filter_step",
    "JaxCfd.C64_exponential_filter",
    "JaxCfd.C64_exponential_filter_mean",
    "JaxCfd.C64_exponential_filter_contracts",
    "JaxCfd.C64_exponential_filter_compose",
    "JaxCfd.C64_exponential_filter_shape_defect",
    "JaxCfd.C64_random_forcing",
    "JaxCfd.C64_random_forcing_modes",
    "JaxCfd.C64_forced_burgers",
    "JaxCfd.C64_forced_burgers_mean",
    "JaxCfd.C64_ns_step",
    "JaxCfd.C64_forcing_velocity",
    "JaxCfd.C64_spectral_kolmogorov",
    "JaxCfd.C64_vorticity_forcing",
    "JaxCfd.C64_kolmogorov_vorticity",
    "JaxCfd.C64_linear_coefficient_defect"
   ],
   "note": "C48 iterated over the scheme and over steps."
  },
  {
   "property": "C65",
   "status": "proved",
   "theorems": [
    "JaxCfd.Eval.C65_vorticity",
    "JaxCfd.Eval.C65_circulation",
    "JaxCfd.Eval.C65_spatial_autocorrelation",
    "JaxCfd.Eval.C65_displacement_label_defect",
    "JaxCfd.Eval.C65_velocity_correlation",
    "JaxCfd.Eval.C65_state_correlation",
    "JaxCfd.Eval.C65_temporal_autocorrelation",
    "JaxCfd.Eval.C65_spectrum_metric",
    "JaxCfd.Eval.C65_spectrum_metric_defect",
    "JaxCfd.Eval.C65_correlation_metric",
    "JaxCfd.Eval.C65_correlation_metric_defect",
    "JaxCfd.Eval.C65_average",
    "JaxCfd.Eval.C65_absolute_error",
    "JaxCfd.Eval.C65_to_xarray",
    "JaxCfd.Eval.C65_to_xarray_no_grid",
    "JaxCfd.Eval.C65_two_scalars_defect",
    "JaxCfd.Eval.C65_too_few_components_defect",
    "JaxCfd.Eval.C65_coords",
    "JaxCfd.Eval.C65_grid_from_attrs",
    "JaxCfd.Eval.C65_grid_from_attrs_missing",
    "JaxCfd.Eval.C65_isotropic_binsum",
    "JaxCfd.Eval.C65_isotropic_parity_defect",
    "JaxCfd.Eval.C65_isotropic_interpolation",
    "JaxCfd.Eval.C65_isotropize_methods",
    "JaxCfd.Eval.C65_isotropic_energy",
    "JaxCfd.Eval.C65_energy_spectrum",
    "JaxCfd.Eval.C65_parseval",
    "JaxCfd.Eval.C65_spectrum_symmetric",
    "JaxCfd.Eval.C65_spectrum_translation"
   ],
   "note": "Finite sums, Cauchy–Schwarz, Parseval."
  },
  {
   "property": "C66",
   "status": "proved",
   "theorems": [
    "JaxCfd.C66_data_points",
    "JaxCfd.C66_bounds",
    "JaxCfd.C66_linear",
    "JaxCfd.C66_multilinear_exact",
    "JaxCfd.C66_nearest",
    "JaxCfd.C66_wrap",
    "JaxCfd.C66_reflect",
    "JaxCfd.C66_mirror",
    "JaxCfd.C66_constant",
    "JaxCfd.C66_order_zero",
    "JaxCfd.C66_order_zero_wrap_defect",
    "JaxCfd.C66_rejects",
    "JaxCfd.C66_matches_linear"
   ],
   "note": "Weights of `map_coordinates`."
  },
  {
   "property": "C67",
   "status": "proved",
   "theorems": [
    "JaxCfd.C67_non_periodic_conv",
    "JaxCfd.C67_non_periodic_interior",
    "JaxCfd.C67_mirror_conv_periodic",
    "JaxCfd.C67_mirror_conv_displaced",
    "JaxCfd.C67_mirror_conv_defect",
    "JaxCfd.C67_tower_layers",
    "JaxCfd.C67_tower_int",
    "JaxCfd.C67_fixed_scale",
    "JaxCfd.C67_residual_connection",
    "JaxCfd.C67_residual_connection_value",
    "JaxCfd.C67_residual_tower_equivariant",
    "JaxCfd.C67_residual_tower_zero",
    "JaxCfd.C67_mlp_tower",
    "JaxCfd.C67_mlp_tower_scaled",
    "JaxCfd.C67_mlp_value",
    "JaxCfd.C67_strided_conv",
    "JaxCfd.C67_scale_range",
    "JaxCfd.C67_scale_invariant",
    "JaxCfd.C67_scale_constant_defect",
    "JaxCfd.C67_scale_equivariant",
    "JaxCfd.C67_lengths",
    "JaxCfd.C67_lengths_error",
    "JaxCfd.C67_tower_equivariant",
    "JaxCfd.C67_transpose_tower_equivariant",
    "JaxCfd.C67_receptive_field",
    "JaxCfd.C67_tower_succeeds",
    "JaxCfd.C67_forward_tower"
   ],
   "note": "Equivariance closed under composition; receptive fields by induction over layers."
  },
  {
   "property": "C68",
   "status": "proved",
   "theorems": [
    "JaxCfd.C68_forward_difference",
    "JaxCfd.C68_backward_difference",
    "JaxCfd.C68_central_difference",
    "JaxCfd.C68_laplacian",
    "JaxCfd.C68_diffuse",
    "JaxCfd.C68_divergence",
    "JaxCfd.C68_curl2d",
    "JaxCfd.C68_linear",
    "JaxCfd.C68_interpolation",
    "JaxCfd.C68_limited",
    "JaxCfd.C68_advect_general",
    "JaxCfd.C68_advection",
    "JaxCfd.C68_convect_linear",
    "JaxCfd.C68_van_leer",
    "JaxCfd.C68_semi_lagrangian",
    "JaxCfd.C68_projection",
    "JaxCfd.C68_exact_projection",
    "JaxCfd.C68_default_convection",
    "JaxCfd.C68_default_diffusion",
    "JaxCfd.C68_explicit_terms",
    "JaxCfd.C68_step",
    "JaxCfd.C68_implicit_step",
    "JaxCfd.C68_exact_diffusion",
    "JaxCfd.C68_repeated",
    "JaxCfd.C68_symmetry",
    "JaxCfd.C68_default_trajectory",
    "JaxCfd.C68_forcings",
    "JaxCfd.C68_kolmogorov"
   ],
   "note": "A relational (logical-relations) argument: every model function maps translated inputs to translated outputs or fails alike."
  },
  {
   "property": "C69",
   "status": "proved",
   "theorems": [
    "JaxCfd.C69_pressure_cg",
    "JaxCfd.C69_projection_residual",
    "JaxCfd.C69_projection",
    "JaxCfd.C69_projection_exact",
    "JaxCfd.C69_exact_solver",
    "JaxCfd.C69_navier_stokes",
    "JaxCfd.C69_diffusion_component",
    "JaxCfd.C69_diffusion_cg",
    "JaxCfd.C69_exact_diffusion",
    "JaxCfd.C69_finite_propagation",
    "JaxCfd.C69_too_few_iterations",
    "JaxCfd.C69_ml_defaults",
    "JaxCfd.C69_ml_diffusion_cg",
    "JaxCfd.C69_ml_diffusion_fast_diag",
    "JaxCfd.C69_ml_fast_diagonalization",
    "JaxCfd.C69_defaults"
   ],
   "note": "The algorithm of `jax.scipy.sparse.linalg.cg` is modelled in exact arithmetic; the discrete operators are shown symmetric and semidefinite with the right-hand side orthogonal to the kernel, and the iteration terminates by orthogonality of the residuals. Rounding is not modelled: in floating point the method may need more iterations."
  },
  {
   "property": "C70",
   "status": "proved",
   "theorems": [
    "JaxCfd.C70_window",
    "JaxCfd.C70_cell_centered",
    "JaxCfd.C70_constants",
    "JaxCfd.C70_mean",
    "JaxCfd.C70_translation",
    "JaxCfd.C70_factor_one_defect",
    "JaxCfd.C70_bounds",
    "JaxCfd.C70_wall",
    "JaxCfd.C70_rejects_grids",
    "JaxCfd.C70_rejects_variables"
   ],
   "note": "Moving average and strided slice are modelled as array operations; the padding by half a filter on both sides is shown to continue the field (SpecTopHat.continued), the subsampling to start every window where SpecTopHat.WindowAt says, and the axes are composed by induction. Along walls the variable must be cell-centered after the initial interpolation (always the case for filtered axes) and the initial interpolation must succeed. Filter sizes are natural numbers. Factor 1 with a larger filter at the cell centers is excluded from the positive theorems and recorded as C70_factor_one_defect."
  },
  {
   "property": "C71",
   "status": "proved",
   "theorems": [
    "JaxCfd.Metric.C71_local",
    "JaxCfd.Metric.C71_local_last",
    "JaxCfd.Metric.C71_batch_axis_defect",
    "JaxCfd.Metric.C71_wrong_axis_defect",
    "JaxCfd.Metric.C71_permutation",
    "JaxCfd.Metric.C71_distributed",
    "JaxCfd.Metric.C71_l2_cumulative_batch"
   ],
   "note": "vmap, stacking, sums along an axis and the collectives are modelled as array operations; permutation and sharding by reindexing finite sums. Keyword arguments of metrics (mapped over axis 0) and empty batches are not modelled; devices hold equal shares."
  },
  {
   "property": "C72",
   "status": "proved",
   "theorems": [
    "JaxCfd.C72_forward_difference",
    "JaxCfd.C72_backward_difference",
    "JaxCfd.C72_central_difference",
    "JaxCfd.C72_laplacian",
    "JaxCfd.C72_diffuse",
    "JaxCfd.C72_divergence",
    "JaxCfd.C72_linear",
    "JaxCfd.C72_interpolation",
    "JaxCfd.C72_limited",
    "JaxCfd.C72_advect_general",
    "JaxCfd.C72_advection",
    "JaxCfd.C72_convect_linear",
    "JaxCfd.C72_exact_projection",
    "JaxCfd.C72_default_convection",
    "JaxCfd.C72_explicit_terms",
    "JaxCfd.C72_step",
    "JaxCfd.C72_exact_diffusion",
    "JaxCfd.C72_implicit_step",
    "JaxCfd.C72_repeated",
    "JaxCfd.C72_symmetry",
    "JaxCfd.C72_default_trajectory",
    "JaxCfd.C72_forcings",
    "JaxCfd.C72_kolmogorov_swap",
    "JaxCfd.C72_semi_lagrangian",
    "JaxCfd.C72_returns_alike",
    "JaxCfd.C72_wall_differences",
    "JaxCfd.C72_wall_laplacian",
    "JaxCfd.C72_wall_diffuse",
    "JaxCfd.C72_wall_divergence",
    "JaxCfd.C72_wall_projection",
    "JaxCfd.C72_wall_default_projection",
    "JaxCfd.C72_van_leer_axis_defect"
   ],
   "note": "A relational argument as for C68, with a permutation of the axes; sums over axes are reindexed, linear interpolation is shown not to depend on the order in which the axes are interpolated. Error values need not coincide (the first failing axis differs), so the relation speaks about successful runs in both directions. With Dirichlet or Neumann walls: differences, Laplacian, diffusion, divergence and projection, from the values above and below a cell (Lemmas of C21/C33); interpolation, advection and whole steps at walls are not covered, nor is advect_van_leer."
  },
  {
   "property": "C73",
   "status": "proved",
   "theorems": [
    "JaxCfd.C73_forward_difference",
    "JaxCfd.C73_backward_difference",
    "JaxCfd.C73_central_difference",
    "JaxCfd.C73_laplacian",
    "JaxCfd.C73_divergence",
    "JaxCfd.C73_diffuse",
    "JaxCfd.C73_curl2d",
    "JaxCfd.C73_advect_linear",
    "JaxCfd.C73_advect_upwind",
    "JaxCfd.C73_convect_linear",
    "JaxCfd.C73_linear",
    "JaxCfd.C73_advect_van_leer",
    "JaxCfd.C73_advect_van_leer_fused",
    "JaxCfd.C73_default_convect",
    "JaxCfd.C73_wall_laplacian",
    "JaxCfd.C73_wall_divergence",
    "JaxCfd.C73_dirichlet_wall_defect",
    "JaxCfd.C73_navier_stokes_terms"
   ],
   "note": "Taylor's formula with Lagrange remainder (Mathlib) on the line through a grid point, with the periodic stencils rewritten as values of the function at neighbouring positions; the van Leer limiter is shown to be Lipschitz continuous in the two differences it compares (Lemmas/Limiter). Exact arithmetic, so rounding errors are outside the model. Periodic grids; between walls the Laplacian and the divergence (C73_wall_*), with the error beyond each kind of wall; interpolation and advection at walls are not covered, and that the error at Dirichlet walls does not spoil the order of solutions is not proved. Instantiated by a plane wave on the torus in every dimension and resolution."
  },
  {
   "property": "C74",
   "status": "proved",
   "theorems": [
    "JaxCfd.C74_explicit_diffusion",
    "JaxCfd.C74_upwind",
    "JaxCfd.C74_recommended_step",
    "JaxCfd.C74_implicit_diffusion",
    "JaxCfd.C74_semi_lagrangian",
    "JaxCfd.C74_wall_diffusion",
    "JaxCfd.C74_wall_implicit_diffusion"
   ],
   "note": "Lax equivalence in the maximum norm: consistency from C73, stability from the maximum principles C30, C31 and C36, induction on the number of steps. The solution of the PDE is given by hypotheses (its time derivative equals the spatial operator); existence of solutions is not proved, but a decaying and a travelling wave are shown to satisfy all hypotheses. Between walls the O(1) defect of the Laplacian at Dirichlet walls is absorbed by the additional damping of the error there (`C74_wall_diffusion`, `C74_wall_implicit_diffusion`); Neumann walls are bounded to first order. Advection on periodic grids; the incompressible Navier-Stokes solver is not covered."
  },
  {
   "property": "C75",
   "status": "proved",
   "theorems": [
    "JaxCfd.C75_backward_forward_euler",
    "JaxCfd.C75_crank_nicolson_rk2",
    "JaxCfd.C75_imex_runge_kutta",
    "JaxCfd.C75_imex_rk_sil3",
    "JaxCfd.C75_crank_nicolson_rk3",
    "JaxCfd.C75_classic_rk4",
    "JaxCfd.C75_sil3_not_third_order",
    "JaxCfd.C75_forward_euler",
    "JaxCfd.C75_midpoint_rk2",
    "JaxCfd.C75_heun_rk2"
   ],
   "note": "Taylor expansion of the solution with explicit remainders, stability of one step in a tube around the solution, discrete Gronwall by induction on the number of steps; fourth order of classic_rk4 by an order calculus (Lemmas/Order). The IMEX theorems use the resolvent and Cayley contractions of a dissipative operator, so the stiffness does not enter; for general tableaux (imex_runge_kutta, imex_rk_sil3, crank_nicolson_rk3) the defects of the solution in the stage equations are estimated and the constants depend on the norm of the implicit operator. crank_nicolson_rk4 is not covered: its rounded coefficients are not exactly consistent (C39_rk4_coefficients). Exact arithmetic; the right hand sides are total functions; existence of the solution is a hypothesis (met by the examples)."
  },
  {
   "property": "C76",
   "status": "proved",
   "theorems": [
    "JaxCfd.C76_projection",
    "JaxCfd.C76_navier_stokes",
    "JaxCfd.C76_run_exists",
    "JaxCfd.C76_navier_stokes_a_priori",
    "JaxCfd.C76_implicit_uniform",
    "JaxCfd.C76_uniform",
    "JaxCfd.C76_implicit_diffusion",
    "JaxCfd.C76_implicit_run_exists",
    "JaxCfd.C76_implicit_a_priori"
   ],
   "note": "Energy method: convection by a discretely divergence-free velocity is skew-symmetric and bounded by the discrete gradient (Lemmas/DiscreteConvection), so under the step restriction the explicit step does not increase the norm of a divergence-free error (Lemmas/FluidStep); the exact solution is compared through its discrete projection, which a discrete Poincare inequality (Lemmas/BoxPoincare) keeps near it; the truncation error comes from C73; discrete Gronwall by induction on the number of steps. Periodic grids, convect_linear only (the default van Leer convection is limited and not linear), forward Euler, exact arithmetic, exact pressure solver (C36/C56_default_solver and C69_exact_solver provide them). Existence of the smooth solution is a hypothesis. Instantiated by a decaying wave on a stream in two dimensions for every resolution and number of steps. implicit_diffusion_navier_stokes (C76_implicit_diffusion, C76_implicit_a_priori, C76_implicit_run_exists): the diffusion solve is stable from the plain norm to the energy norm, which absorbs the explicit convection when dt d U^2 <= 2 nu, so there is no diffusive step restriction; the limit equation has kinematic viscosity `viscosity` whatever the density (finding: the density is ignored). C76_uniform and C76_implicit_uniform: limits along refinements, with a sequence of grids of the torus as instance."
  },
  {
   "property": "C77",
   "status": "proved",
   "theorems": [
    "JaxCfd.C77_shift",
    "JaxCfd.C77_impose_bc",
    "JaxCfd.C77_differences",
    "JaxCfd.C77_laplacian",
    "JaxCfd.C77_diffuse",
    "JaxCfd.C77_divergence",
    "JaxCfd.C77_curl",
    "JaxCfd.C77_linear",
    "JaxCfd.C77_interpolation",
    "JaxCfd.C77_limited",
    "JaxCfd.C77_advect_general",
    "JaxCfd.C77_advection",
    "JaxCfd.C77_convect_linear",
    "JaxCfd.C77_cutoff_projection",
    "JaxCfd.C77_cutoff_hidden_unit",
    "JaxCfd.C77_repeated",
    "JaxCfd.C77_exact_trajectory",
    "JaxCfd.C77_default_trajectory",
    "JaxCfd.C77_linear_forcing",
    "JaxCfd.C77_no_forcing",
    "JaxCfd.C77_sum_forcings",
    "JaxCfd.C77_kolmogorov",
    "JaxCfd.C77_simple_turbulence",
    "JaxCfd.C77_filtered_forcing",
    "JaxCfd.C77_filtered_linear_forcing",
    "JaxCfd.C77_smagorinsky",
    "JaxCfd.C77_explicit_smagorinsky",
    "JaxCfd.C77_explicit_smagorinsky_forced",
    "JaxCfd.C77_smagorinsky_density",
    "JaxCfd.C77_semi_lagrangian",
    "JaxCfd.C77_dynamic_time_step",
    "JaxCfd.C77_projection",
    "JaxCfd.C77_exact_projection",
    "JaxCfd.C77_default_convection",
    "JaxCfd.C77_explicit_terms",
    "JaxCfd.C77_step",
    "JaxCfd.C77_default_step",
    "JaxCfd.C77_advective_time_step",
    "JaxCfd.C77_diffusive_time_step",
    "JaxCfd.C77_stable_time_step"
   ],
   "note": "Relational proofs: every function maps inputs related by the change of units to related outputs (and succeeds whenever the original does), composed along the monadic structure of the model. For the projection the scaled pressure is an exact solution of the scaled problem and solutions are unique up to the constant. A Gershgorin bound on the eigenvalues gives the failure for a large cutoff. Sides that are not periodic must have a boundary value. Not covariant (proved or recorded): the absolute cutoff of `pseudoinverse` (C77_cutoff_hidden_unit), the explicit Smagorinsky model divides an acceleration by the density (C77_smagorinsky_density), implicit diffusion ignores the density (C56_implicit_ignores_density), the Taylor-Green forcing ignores the domain (C49_taylor_green_defect). Rounding and the dtype-dependent value of the cutoff are outside the model."
  },
  {
   "property": "C78",
   "status": "proved",
   "theorems": [
    "JaxCfd.C78_mirror_position",
    "JaxCfd.C78_divergence",
    "JaxCfd.C78_diffuse",
    "JaxCfd.C78_advect_van_leer",
    "JaxCfd.C78_convection",
    "JaxCfd.C78_exact_projection",
    "JaxCfd.C78_linear",
    "JaxCfd.C78_semi_lagrangian",
    "JaxCfd.C78_default_diffusion",
    "JaxCfd.C78_explicit_terms",
    "JaxCfd.C78_step",
    "JaxCfd.C78_implicit_step",
    "JaxCfd.C78_exact_diffusion",
    "JaxCfd.C78_repeated",
    "JaxCfd.C78_default_trajectory",
    "JaxCfd.C78_no_flow_through_mirror",
    "JaxCfd.C78_symmetric_trajectory",
    "JaxCfd.C78_forcings",
    "JaxCfd.C78_kolmogorov",
    "JaxCfd.C78_kolmogorov_half_turn",
    "JaxCfd.C78_mirror_image",
    "JaxCfd.C78_wall_mirror_position",
    "JaxCfd.C78_wall_diffuse",
    "JaxCfd.C78_wall_divergence",
    "JaxCfd.C78_wall_projection",
    "JaxCfd.C78_wall_default_projection",
    "JaxCfd.C78_wall_mirror_image"
   ],
   "note": "Relational proofs as for C77: a mirrored pair of inputs gives a mirrored pair of results or the same exception. The limited interpolation is not itself equivariant (at zero velocity the upwind side is chosen arbitrarily) but the flux velocity * interpolated value is, which is what is proved. For the semi-Lagrangian step the departure cells on the two sides are found by rounding in different directions; the multilinear interpolant is shown not to notice. For the projection and the implicit diffusion the mirrored solution solves the mirrored problem and solutions are unique. C78_mirror_position ties the index reflection to the positions of the grid. With walls (C78_wall_*): stencils, diffusion, divergence and projection, for mirrors normal to a walled axis, in the middle of the box; every flow is shown to have a mirror image; interpolation, advection and steps with walls are not covered. The collocated and spectral solvers are not covered; the mirror passes through the lower corner of the domain; Kolmogorov forcing is invariant under no single reflection, so the statements about steps relate two forcings; its wave must fit the domain and have a node at the lower corner."
  }
 ]
}