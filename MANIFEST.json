{
 "claims": [
  {
   "property": "C01",
   "status": "proved",
   "theorems": [
    "Dec.Props.C01_periodic_hodge_inverse",
    "Dec.Props.C01_no_division_by_zero"
   ],
   "note": ""
  },
  {
   "property": "C02",
   "status": "proved",
   "theorems": [
    "Dec.Props.C02_periodic_hodge_exact"
   ],
   "note": ""
  },
  {
   "property": "C03",
   "status": "proved",
   "theorems": [
    "Dec.Props.C03_real",
    "Dec.Props.C03_regular_hodge_inverse"
   ],
   "note": ""
  },
  {
   "property": "C04",
   "status": "proved",
   "theorems": [
    "Dec.Props.C04_regular_hodge_exact_primal",
    "Dec.Props.C04_regular_hodge_exact_dual"
   ],
   "note": ""
  },
  {
   "property": "C05",
   "status": "proved",
   "theorems": [
    "Dec.Props.C05_chebyshev_hodge_inverse_primal",
    "Dec.Props.C05_chebyshev_hodge_inverse_dual",
    "Dec.Props.C05_chebyshev_hodge_rejects",
    "Dec.Props.C05_dual_star_injective"
   ],
   "note": ""
  },
  {
   "property": "C06",
   "status": "proved",
   "theorems": [
    "Dec.Props.C06_chebyshev_hodge_exact_primal",
    "Dec.Props.C06_chebyshev_hodge_exact_dual"
   ],
   "note": ""
  },
  {
   "property": "C07",
   "status": "proved",
   "theorems": [
    "Dec.Props.C07_interval",
    "Dec.Props.C07_periodic"
   ],
   "note": ""
  },
  {
   "property": "C08",
   "status": "proved",
   "theorems": [
    "Dec.Props.C08_interval",
    "Dec.Props.C08_periodic"
   ],
   "note": ""
  },
  {
   "property": "C09",
   "status": "proved",
   "theorems": [
    "Dec.Props.C09_interval",
    "Dec.Props.C09_periodic",
    "Dec.Props.C09_derivative_matrix"
   ],
   "note": ""
  },
  {
   "property": "C10",
   "status": "proved",
   "theorems": [
    "Dec.Props.C10_interval_stokes",
    "Dec.Props.C10_interval_stokes_dual",
    "Dec.Props.C10_interval_kernel",
    "Dec.Props.C10_interval_kernel_dual",
    "Dec.Props.C10_periodic_stokes",
    "Dec.Props.C10_periodic_kernel"
   ],
   "note": ""
  },
  {
   "property": "C11",
   "status": "proved",
   "theorems": [
    "Dec.Props.C11_cells",
    "Dec.Props.C11_projection",
    "Dec.Props.C11_derivative",
    "Dec.Props.C11_hodge",
    "Dec.Props.C11_refinement",
    "Dec.Props.C11_wedge",
    "Dec.Props.C11_contraction",
    "Dec.Props.C11_points",
    "Dec.Props.C11_hodge_linear"
   ],
   "note": ""
  },
  {
   "property": "C12",
   "status": "proved",
   "theorems": [
    "Dec.Props.C12_interval_primal",
    "Dec.Props.C12_interval_dual",
    "Dec.Props.C12_interval_points",
    "Dec.Props.C12_periodic",
    "Dec.Props.C12_periodic_points",
    "Dec.Props.C12_cell_lengths_interval",
    "Dec.Props.C12_cell_lengths_periodic"
   ],
   "note": ""
  },
  {
   "property": "C13",
   "status": "proved",
   "theorems": [
    "Dec.Props.C13_dual",
    "Dec.Props.C13_cells"
   ],
   "note": ""
  },
  {
   "property": "C14",
   "status": "proved",
   "theorems": [
    "Dec.Props.C14_dual",
    "Dec.Props.C14_cells"
   ],
   "note": ""
  },
  {
   "property": "C15",
   "status": "proved",
   "theorems": [
    "Dec.Props.C15_dual",
    "Dec.Props.C15_cells"
   ],
   "note": ""
  },
  {
   "property": "C16",
   "status": "proved",
   "theorems": [
    "Dec.Props.C16_projection_reconstruction"
   ],
   "note": ""
  },
  {
   "property": "C17",
   "status": "proved",
   "theorems": [
    "Dec.Props.C17_psi0",
    "Dec.Props.C17_psid0"
   ],
   "note": ""
  },
  {
   "property": "C18",
   "status": "proved",
   "theorems": [
    "Dec.Props.C18_chebyshev_unrefine_refine",
    "Dec.Props.C18_periodic_unrefine_refine"
   ],
   "note": ""
  },
  {
   "property": "C19",
   "status": "proved",
   "theorems": [
    "Dec.Props.C19_chebyshev_refine_samples",
    "Dec.Props.C19_chebyshev_unrefine_exact",
    "Dec.Props.C19_periodic_refine_samples",
    "Dec.Props.C19_periodic_unrefine_exact"
   ],
   "note": ""
  },
  {
   "property": "C20",
   "status": "proved",
   "theorems": [
    "Dec.Props.C20_2d_graded_commutative",
    "Dec.Props.C20_2d_key_error",
    "Dec.Props.C20_2d_bilinear_left",
    "Dec.Props.C20_2d_bilinear_right",
    "Dec.Props.C20_graded_commutative",
    "Dec.Props.C20_commutative_key_error",
    "Dec.Props.C20_bilinear_left",
    "Dec.Props.C20_bilinear_right"
   ],
   "note": ""
  },
  {
   "property": "C21",
   "status": "proved",
   "theorems": [
    "Dec.Props.C21_chebyshev_wedge_exact",
    "Dec.Props.C21_chebyshev_wedge_key_error",
    "Dec.Props.C21_periodic_wedge_exact",
    "Dec.Props.C21_wedge_key_error"
   ],
   "note": ""
  },
  {
   "property": "C22",
   "status": "proved",
   "theorems": [
    "Dec.Props.C22_periodic_leibniz_mixed",
    "Dec.Props.C22_periodic_leibniz"
   ],
   "note": ""
  },
  {
   "property": "C23",
   "status": "proved",
   "theorems": [
    "Dec.Props.C23_periodic_laplacian_exact",
    "Dec.Props.C23_periodic_laplacian_interpolant",
    "Dec.Props.C23_periodic_laplacian_kernel"
   ],
   "note": ""
  },
  {
   "property": "C24",
   "status": "proved",
   "theorems": [
    "Dec.Props.C24_chebyshev_contraction_exact",
    "Dec.Props.C24_2d_bilinear",
    "Dec.Props.C24_periodic_contraction_exact",
    "Dec.Props.C24_bilinear"
   ],
   "note": ""
  },
  {
   "property": "C25",
   "status": "proved",
   "theorems": [
    "Dec.Props.C25_derivative_squared"
   ],
   "note": ""
  },
  {
   "property": "C26",
   "status": "proved",
   "theorems": [
    "Dec.Props.C26_hodge_even",
    "Dec.Props.C26_hodge_one"
   ],
   "note": ""
  },
  {
   "property": "C27",
   "status": "proved",
   "theorems": [
    "Dec.Props.C27_primal_0",
    "Dec.Props.C27_dual_0",
    "Dec.Props.C27_primal_1",
    "Dec.Props.C27_dual_1",
    "Dec.Props.C27_periodic_no_boundary"
   ],
   "note": ""
  },
  {
   "property": "C28",
   "status": "proved",
   "theorems": [
    "Dec.Props.C28_reshape_unshape",
    "Dec.Props.C28_unshape_reshape",
    "Dec.Props.C28_injective",
    "Dec.Props.C28_counts",
    "Dec.Props.C28_unravel",
    "Dec.Props.C28_unravel_range",
    "Dec.Props.C28_arange2"
   ],
   "note": ""
  },
  {
   "property": "C29",
   "status": "proved",
   "theorems": [
    "Dec.Props.C29_cells",
    "Dec.Props.C29_projection",
    "Dec.Props.C29_derivative",
    "Dec.Props.C29_rejects",
    "Dec.Props.C29_hodge",
    "Dec.Props.C29_products"
   ],
   "note": ""
  },
  {
   "property": "C30",
   "status": "proved",
   "theorems": [
    "Dec.Props.C30_rejects",
    "Dec.Props.C30_entrywise",
    "Dec.Props.C30_scalar",
    "Dec.Props.C30_module",
    "Dec.Props.C30_rejects_products",
    "Dec.Props.C30_mismatched_lengths"
   ],
   "note": ""
  },
  {
   "property": "C31",
   "status": "proved",
   "theorems": [
    "Dec.Props.C31_two_dimensions_fails",
    "Dec.Props.C31_block",
    "Dec.Props.C31_one_dimension"
   ],
   "note": ""
  },
  {
   "property": "C32",
   "status": "proved",
   "theorems": [
    "Dec.Props.C32_d_squared",
    "Dec.Props.C32_leibniz"
   ],
   "note": ""
  },
  {
   "property": "C33",
   "status": "proved",
   "theorems": [
    "Dec.Props.C33_graded_commutative",
    "Dec.Props.C33_associative",
    "Dec.Props.C33_square_zero",
    "Dec.Props.C33_rejected"
   ],
   "note": ""
  },
  {
   "property": "C34",
   "status": "proved",
   "theorems": [
    "Dec.Props.C34_hodge_squared",
    "Dec.Props.C34_dot",
    "Dec.Props.C34_contraction",
    "Dec.Props.C34_contraction_twice"
   ],
   "note": ""
  },
  {
   "property": "C35",
   "status": "proved",
   "theorems": [
    "Dec.Props.C35_laplacian",
    "Dec.Props.C35_lie",
    "Dec.Props.C35_lie_1d",
    "Dec.Props.C35_lie_commutes",
    "Dec.Props.C35_grad_div_vort",
    "Dec.Props.C35_adv"
   ],
   "note": ""
  },
  {
   "property": "C36",
   "status": "proved",
   "theorems": [
    "Dec.Props.C36_scalar_multiplication_fails",
    "Dec.Props.C36_linear_operations",
    "Dec.Props.C36_rejected"
   ],
   "note": ""
  },
  {
   "property": "C37",
   "status": "proved",
   "theorems": [
    "Dec.Props.C37_schur",
    "Dec.Props.C37_schur_operators"
   ],
   "note": ""
  },
  {
   "property": "C38",
   "status": "proved",
   "theorems": [
    "Dec.Props.C38_left_inverse",
    "Dec.Props.C38_right_inverse",
    "Dec.Props.C38_singular_rejected",
    "Dec.Props.C38_rejects_invertible"
   ],
   "note": ""
  },
  {
   "property": "C39",
   "status": "proved",
   "theorems": [
    "Dec.Props.C39_transparent",
    "Dec.Props.C39_call_returns"
   ],
   "note": ""
  },
  {
   "property": "C40",
   "status": "proved",
   "theorems": [
    "Dec.Props.C40_once_per_session",
    "Dec.Props.C40_once_across_clean_exits",
    "Dec.Props.C40_crash_keeps_last_commit",
    "Dec.Props.C40_commit_after_any_history",
    "Dec.Props.C40_concurrent_lost_update",
    "Dec.Props.C40_start_succeeds",
    "Dec.Props.C40_crash_in_commit_blocks_start"
   ],
   "note": ""
  },
  {
   "property": "C41",
   "status": "proved",
   "theorems": [
    "Dec.Props.C41_set_get",
    "Dec.Props.C41_set_wf",
    "Dec.Props.C41_failed_set_destroys",
    "Dec.Props.C41_get_absent",
    "Dec.Props.C41_delete",
    "Dec.Props.C41_delete_directory",
    "Dec.Props.C41_history",
    "Dec.Props.C41_history_empty"
   ],
   "note": ""
  },
  {
   "property": "C42",
   "status": "proved",
   "theorems": [
    "Dec.Props.C42_simpson",
    "Dec.Props.C42_boole",
    "Dec.Props.C42_sharp",
    "Dec.Props.C42_boole1",
    "Dec.Props.C42_boole2"
   ],
   "note": ""
  },
  {
   "property": "C43",
   "status": "proved",
   "theorems": [
    "Dec.Props.C43_area",
    "Dec.Props.C43_rectangle"
   ],
   "note": ""
  },
  {
   "property": "C44",
   "status": "proved",
   "theorems": [
    "Dec.Props.C44_P1_gradient",
    "Dec.Props.C44_1form_gradient",
    "Dec.Props.C44_P1_reverse",
    "Dec.Props.C44_1form_reverse",
    "Dec.Props.C44_P1_split",
    "Dec.Props.C44_P2_constant",
    "Dec.Props.C44_P2_nP2",
    "Dec.Props.C44_P2_swap12",
    "Dec.Props.C44_P2_swap02",
    "Dec.Props.C44_P2_swap01",
    "Dec.Props.C44_averages",
    "Dec.Props.C44_averages_2d_integral",
    "Dec.Props.C44_averages_affine",
    "Dec.Props.C44_average_integral",
    "Dec.Props.C44_cells",
    "Dec.Props.C44_P2r_nP2r"
   ],
   "note": ""
  },
  {
   "property": "C45",
   "status": "proved",
   "theorems": [
    "Dec.Props.C45_unmirror0_mirror0",
    "Dec.Props.C45_unmirror1_mirror1",
    "Dec.Props.C45_mirror0_symmetric",
    "Dec.Props.C45_mirror1_symmetric",
    "Dec.Props.C45_fold1_mirror1",
    "Dec.Props.C45_fold1_mirror1_neg",
    "Dec.Props.C45_fold0_unfold0",
    "Dec.Props.C45_unextend_extend",
    "Dec.Props.C45_unextend_wide",
    "Dec.Props.C45_unextend_zero"
   ],
   "note": ""
  },
  {
   "property": "C46",
   "status": "proved",
   "theorems": [
    "Dec.Props.C46_chebyshev_shift",
    "Dec.Props.C46_chebyshev_shift_exact",
    "Dec.Props.C46_shift_inverse_odd",
    "Dec.Props.C46_shift_exact",
    "Dec.Props.C46_shift_commutes_with_hodge",
    "Dec.Props.C46_shifts_commute",
    "Dec.Props.C46_even_not_invertible"
   ],
   "note": ""
  },
  {
   "property": "C47",
   "status": "proved",
   "theorems": [
    "Dec.Props.C47_to_matrix",
    "Dec.Props.C47_injective",
    "Dec.Props.C47_comp",
    "Dec.Props.C47_by_index"
   ],
   "note": ""
  },
  {
   "property": "C48",
   "status": "proved",
   "theorems": [
    "Dec.Props.C48_coarse",
    "Dec.Props.C48_spectral",
    "Dec.Props.C48_chebyshev",
    "Dec.Props.C48_chebyshev_dual",
    "Dec.Props.C48_split_args",
    "Dec.Props.C48_split_periodic",
    "Dec.Props.C48_split_chebyshev"
   ],
   "note": ""
  },
  {
   "property": "C49",
   "status": "proved",
   "theorems": [
    "Dec.Props.C49_nCr",
    "Dec.Props.C49_nCr_raises",
    "Dec.Props.C49_by_degree_D",
    "Dec.Props.C49_by_degree_H",
    "Dec.Props.C49_by_degree_W",
    "Dec.Props.C49_by_degree_C",
    "Dec.Props.C49_lambda",
    "Dec.Props.C49_lambda_asserts",
    "Dec.Props.C49_operators",
    "Dec.Props.C49_operators_nodup"
   ],
   "note": ""
  },
  {
   "property": "C50",
   "status": "proved",
   "theorems": [
    "Dec.Props.C50_cardinal",
    "Dec.Props.C50_polynomial",
    "Dec.Props.C50_interpolation",
    "Dec.Props.C50_limits"
   ],
   "note": ""
  },
  {
   "property": "C51",
   "status": "proved",
   "theorems": [
    "Dec.Props.C51_hodge_off_by_length",
    "Dec.Props.C51_constant_iff",
    "Dec.Props.C51_unit_interval_fails"
   ],
   "note": ""
  },
  {
   "property": "C52",
   "status": "proved",
   "theorems": [
    "Dec.Props.C52_interweave",
    "Dec.Props.C52_rejects",
    "Dec.Props.C52_typed",
    "Dec.Props.C52_casts",
    "Dec.Props.C52_truncation",
    "Dec.Props.C52_truncates"
   ],
   "note": ""
  },
  {
   "property": "C53",
   "status": "proved",
   "theorems": [
    "Dec.Props.C53_dual",
    "Dec.Props.C53_out_of_range",
    "Dec.Props.C53_projection_reconstruction"
   ],
   "note": ""
  },
  {
   "property": "C54",
   "status": "proved",
   "theorems": [
    "Dec.Props.C54_unrefine_refine"
   ],
   "note": ""
  },
  {
   "property": "C55",
   "status": "proved",
   "theorems": [
    "Dec.Props.C55_projection_0",
    "Dec.Props.C55_projection_1",
    "Dec.Props.C55_projection_2",
    "Dec.Props.C55_boundary_0",
    "Dec.Props.C55_boundary_1",
    "Dec.Props.C55_boundary_1_periodic_fails"
   ],
   "note": ""
  },
  {
   "property": "C56",
   "status": "proved",
   "theorems": [
    "Dec.Props.C56_equality",
    "Dec.Props.C56_reflexive",
    "Dec.Props.C56_not_symmetric",
    "Dec.Props.C56_not_transitive"
   ],
   "note": ""
  },
  {
   "property": "C57",
   "status": "proved",
   "theorems": [
    "Dec.Props.C57_derivative_1d",
    "Dec.Props.C57_hodge_1d",
    "Dec.Props.C57_products_1d",
    "Dec.Props.C57_derivative_2d",
    "Dec.Props.C57_hodge_2d",
    "Dec.Props.C57_products_2d"
   ],
   "note": ""
  },
  {
   "property": "C58",
   "status": "proved",
   "theorems": [
    "Dec.Props.C58_hodge_exact"
   ],
   "note": ""
  },
  {
   "property": "C59",
   "status": "proved",
   "theorems": [
    "Dec.Props.C59_refine_samples"
   ],
   "note": ""
  },
  {
   "property": "C60",
   "status": "proved",
   "theorems": [
    "Dec.Props.C60_wedge_exact",
    "Dec.Props.C60_wedge_exact_periodic"
   ],
   "note": ""
  },
  {
   "property": "C61",
   "status": "proved",
   "theorems": [
    "Dec.Props.C61_contraction_exact",
    "Dec.Props.C61_contraction_exact_periodic"
   ],
   "note": ""
  },
  {
   "property": "C62",
   "status": "proved",
   "theorems": [
    "Dec.Props.C62_leibniz"
   ],
   "note": ""
  },
  {
   "property": "C63",
   "status": "proved",
   "theorems": [
    "Dec.Props.C63_w00",
    "Dec.Props.C63_w01_odd",
    "Dec.Props.C63_w01_even",
    "Dec.Props.C63_w01_assoc_odd",
    "Dec.Props.C63_w01_assoc_even",
    "Dec.Props.C63_w01_assoc_exact",
    "Dec.Props.C63_w01_assoc_differs"
   ],
   "note": ""
  },
  {
   "property": "C64",
   "status": "proved",
   "theorems": [
    "Dec.Props.C64_associative_when_resolved",
    "Dec.Props.C64_not_associative"
   ],
   "note": ""
  },
  {
   "property": "C65",
   "status": "proved",
   "theorems": [
    "Dec.Props.C65_flows",
    "Dec.Props.C65_steady"
   ],
   "note": ""
  },
  {
   "property": "C66",
   "status": "proved",
   "theorems": [
    "Dec.Props.C66_2d_derivative_primal",
    "Dec.Props.C66_2d_derivative_dual",
    "Dec.Props.C66_2d_hodge",
    "Dec.Props.C66_2d_wedge",
    "Dec.Props.C66_2d_contraction",
    "Dec.Props.C66_1d_projection",
    "Dec.Props.C66_1d_constant",
    "Dec.Props.C66_rejects",
    "Dec.Props.C66_1d_derivative",
    "Dec.Props.C66_1d_derivative_periodic",
    "Dec.Props.C66_1d_hodge",
    "Dec.Props.C66_1d_wedge_periodic",
    "Dec.Props.C66_1d_contraction_periodic",
    "Dec.Props.C66_1d_wedge_chebyshev",
    "Dec.Props.C66_1d_contraction_chebyshev"
   ],
   "note": ""
  },
  {
   "property": "C67",
   "status": "proved",
   "theorems": [
    "Dec.Props.C67_kernel",
    "Dec.Props.C67_solvable",
    "Dec.Props.C67_dirichlet_bijective",
    "Dec.Props.C67_periodic_solution",
    "Dec.Props.C67_neumann_exact",
    "Dec.Props.C67_neumann_solution",
    "Dec.Props.C67_dirichlet_solution"
   ],
   "note": ""
  },
  {
   "property": "C68",
   "status": "proved",
   "theorems": [
    "Dec.Props.C68_interpolant",
    "Dec.Props.C68_real",
    "Dec.Props.C68_shift",
    "Dec.Props.C68_integral",
    "Dec.Props.C68_antiderivative",
    "Dec.Props.C68_integral_inverse",
    "Dec.Props.C68_integral_injective_iff",
    "Dec.Props.C68_short_step",
    "Dec.Props.C68_derivative_from_differences",
    "Dec.Props.C68_sine_integral",
    "Dec.Props.C68_sine_integral_inverse",
    "Dec.Props.C68_refine",
    "Dec.Props.C68_coarsen",
    "Dec.Props.C68_coarsen_refine",
    "Dec.Props.C68_laws",
    "Dec.Props.C68_half_edge"
   ],
   "note": ""
  },
  {
   "property": "C69",
   "status": "proved",
   "theorems": [
    "Dec.Props.C69_transforms",
    "Dec.Props.C69_H_exp_injective",
    "Dec.Props.C69_H_sin_singular",
    "Dec.Props.C69_H_sin_dual_injective",
    "Dec.Props.C69_dual_stars",
    "Dec.Props.C69_primal_star",
    "Dec.Props.C69_dual_one_star"
   ],
   "note": ""
  },
  {
   "property": "C70",
   "status": "proved",
   "theorems": [
    "Dec.Props.C70_reconstruct",
    "Dec.Props.C70_reconstruction_determined",
    "Dec.Props.C70_projection_injective",
    "Dec.Props.C70_periodic_end",
    "Dec.Props.C70_chebyshev_primal_ends",
    "Dec.Props.C70_chebyshev_dual_ends",
    "Dec.Props.C70_reconstruct_2d",
    "Dec.Props.C70_reconstruction_determined_2d",
    "Dec.Props.C70_projection_injective_2d"
   ],
   "note": ""
  },
  {
   "property": "C71",
   "status": "proved",
   "theorems": [
    "Dec.Props.C71_star_matrix",
    "Dec.Props.C71_toeplitz"
   ],
   "note": ""
  },
  {
   "property": "C72",
   "status": "proved",
   "theorems": [
    "Dec.Props.C72_line",
    "Dec.Props.C72_adjoint",
    "Dec.Props.C72_kernel",
    "Dec.Props.C72_stokes",
    "Dec.Props.C72_potential",
    "Dec.Props.C72_potential_two",
    "Dec.Props.C72_closed_not_exact"
   ],
   "note": ""
  },
  {
   "property": "C73",
   "status": "proved",
   "theorems": [
    "Dec.Props.C73_star",
    "Dec.Props.C73_laplacian",
    "Dec.Props.C73_eigenvalue",
    "Dec.Props.C73_chebyshev_not_symmetric",
    "Dec.Props.C73_star_product",
    "Dec.Props.C73_star_product_one",
    "Dec.Props.C73_laplacian_product"
   ],
   "note": ""
  },
  {
   "property": "C74",
   "status": "proved",
   "theorems": [
    "Dec.Props.C74_neumann",
    "Dec.Props.C74_primal_0",
    "Dec.Props.C74_dual_0",
    "Dec.Props.C74_primal_1",
    "Dec.Props.C74_dual_1",
    "Dec.Props.C74_periodic",
    "Dec.Props.C74_kernel",
    "Dec.Props.C74_dirichlet"
   ],
   "note": ""
  },
  {
   "property": "C75",
   "status": "proved",
   "theorems": [
    "Dec.Props.C75_diag_apply",
    "Dec.Props.C75_sparse_apply",
    "Dec.Props.C75_diag_sparse",
    "Dec.Props.C75_bndry",
    "Dec.Props.C75_bndry_telescopes",
    "Dec.Props.C75_dual_derivative",
    "Dec.Props.C75_bndry_axis0",
    "Dec.Props.C75_bndry_axis1",
    "Dec.Props.C75_apply_map",
    "Dec.Props.C75_cartesian",
    "Dec.Props.C75_cartesian_pairs"
   ],
   "note": ""
  },
  {
   "property": "C76",
   "status": "proved",
   "theorems": [
    "Dec.Props.C76_enumerate",
    "Dec.Props.C76_enumerate_distinct",
    "Dec.Props.C76_enumerate_collision",
    "Dec.Props.C76_cell_coords",
    "Dec.Props.C76_measure_edges",
    "Dec.Props.C76_measure_triangles",
    "Dec.Props.C76_dispatch_last",
    "Dec.Props.C76_dispatch_missing",
    "Dec.Props.C76_namedtuple"
   ],
   "note": ""
  },
  {
   "property": "C77",
   "status": "proved",
   "theorems": [
    "Dec.Props.C77_interpolation",
    "Dec.Props.C77_tables",
    "Dec.Props.C77_refine_1d",
    "Dec.Props.C77_refine_2d",
    "Dec.Props.C77_rand"
   ],
   "note": ""
  },
  {
   "property": "C78",
   "status": "proved",
   "theorems": [
    "Dec.Props.C78_roundtrip",
    "Dec.Props.C78_injective",
    "Dec.Props.C78_incomplete_rejected",
    "Dec.Props.C78_number_cut_short",
    "Dec.Props.C78_surrogates_merge",
    "Dec.Props.C78_dump_succeeds_iff",
    "Dec.Props.C78_failed_dump_rejected",
    "Dec.Props.C78_commit_complete",
    "Dec.Props.C78_commit_incomplete"
   ],
   "note": ""
  },
  {
   "property": "C79",
   "status": "proved",
   "theorems": [
    "Dec.Props.C79_sequential_file",
    "Dec.Props.C79_sequential_no_mixture",
    "Dec.Props.C79_sequential_commit",
    "Dec.Props.C79_same_value_any_overlap",
    "Dec.Props.C79_same_text_complete",
    "Dec.Props.C79_overlap_mixes_tables"
   ],
   "note": ""
  },
  {
   "property": "C80",
   "status": "proved",
   "theorems": [
    "Dec.Props.C80_star_error",
    "Dec.Props.C80_reconstruction_error",
    "Dec.Props.C80_convergence",
    "Dec.Props.C80_spectral_accuracy",
    "Dec.Props.C80_spectral_star",
    "Dec.Props.C80_chebyshev_one_form_error",
    "Dec.Props.C80_chebyshev_one_form_reconstruction",
    "Dec.Props.C80_laplacian_error"
   ],
   "note": ""
  },
  {
   "property": "C81",
   "status": "proved",
   "theorems": [
    "Dec.Props.C81_mirror_projection",
    "Dec.Props.C81_rotate_projection",
    "Dec.Props.C81_mirror_derivative",
    "Dec.Props.C81_rotate_derivative",
    "Dec.Props.C81_mirror_star",
    "Dec.Props.C81_rotate_star",
    "Dec.Props.C81_mirror_laplacian",
    "Dec.Props.C81_rotate_laplacian",
    "Dec.Props.C81_mirror_refine",
    "Dec.Props.C81_mirror_unrefine",
    "Dec.Props.C81_rotate_refine",
    "Dec.Props.C81_rotate_unrefine",
    "Dec.Props.C81_mirror_wedge",
    "Dec.Props.C81_rotate_wedge",
    "Dec.Props.C81_mirror_contraction",
    "Dec.Props.C81_rotate_contraction",
    "Dec.Props.C81_mirror_reconstruct",
    "Dec.Props.C81_rotate_reconstruct"
   ],
   "note": ""
  },
  {
   "property": "C82",
   "status": "proved",
   "theorems": [
    "Dec.Props.C82_one_dimension",
    "Dec.Props.C82_two_dimensions",
    "Dec.Props.C82_other_names",
    "Dec.Props.C82_swapped_chart"
   ],
   "note": ""
  },
  {
   "property": "C83",
   "status": "proved",
   "theorems": [
    "Dec.Props.C83_projection",
    "Dec.Props.C83_derivative_interval",
    "Dec.Props.C83_hodge",
    "Dec.Props.C83_reconstruction",
    "Dec.Props.C83_derivative_periodic",
    "Dec.Props.C83_constant_callable",
    "Dec.Props.C83_projection_2d",
    "Dec.Props.C83_cells_2d",
    "Dec.Props.C83_derivative_2d",
    "Dec.Props.C83_hodge_2d",
    "Dec.Props.C83_reconstruction_2d",
    "Dec.Props.C83_numeric_forms",
    "Dec.Props.C83_constant_callable_2d",
    "Dec.Props.C83_constructor_periodic",
    "Dec.Props.C83_constructor_regular",
    "Dec.Props.C83_constructor_chebyshev"
   ],
   "note": ""
  },
  {
   "property": "C84",
   "status": "proved",
   "theorems": [
    "Dec.Props.C84_equality",
    "Dec.Props.C84_equivalence",
    "Dec.Props.C84_congruence",
    "Dec.Props.C84_expressions",
    "Dec.Props.C84_integers",
    "Dec.Props.C84_mixed",
    "Dec.Props.C84_list_membership",
    "Dec.Props.C84_set_membership",
    "Dec.Props.C84_equal_but_not_found",
    "Dec.Props.C84_getitem",
    "Dec.Props.C84_iteration",
    "Dec.Props.C84_rmul"
   ],
   "note": ""
  },
  {
   "property": "C85",
   "status": "proved",
   "theorems": [
    "Dec.Props.C85_round",
    "Dec.Props.C85_approx",
    "Dec.Props.C85_approx_splits",
    "Dec.Props.C85_approx_arrays",
    "Dec.Props.C85_equidistant",
    "Dec.Props.C85_integrators_sound",
    "Dec.Props.C85_integrate_circle",
    "Dec.Props.C85_integrate_exact",
    "Dec.Props.C85_integrate_rejects",
    "Dec.Props.C85_integrate_chebyshev",
    "Dec.Props.C85_nametuple",
    "Dec.Props.C85_nametuple_blank",
    "Dec.Props.C85_NamedTuple",
    "Dec.Props.C85_set_attributes"
   ],
   "note": ""
  },
  {
   "property": "C86",
   "status": "proved",
   "theorems": [
    "Dec.Props.C86_primal",
    "Dec.Props.C86_dual_periodic",
    "Dec.Props.C86_dual_chebyshev",
    "Dec.Props.C86_edge_chebyshev",
    "Dec.Props.C86_edge_periodic",
    "Dec.Props.C86_edge_regular",
    "Dec.Props.C86_regular",
    "Dec.Props.C86_regular_differs",
    "Dec.Props.C86_dual_edge_chebyshev",
    "Dec.Props.C86_alt",
    "Dec.Props.C86_alt_agrees_iff"
   ],
   "note": ""
  },
  {
   "property": "C87",
   "status": "proved",
   "theorems": [
    "Dec.Props.C87_move_derivative",
    "Dec.Props.C87_move_star",
    "Dec.Props.C87_move_laplacian",
    "Dec.Props.C87_move_wedge",
    "Dec.Props.C87_move_contraction",
    "Dec.Props.C87_swap_derivative",
    "Dec.Props.C87_swap_twice",
    "Dec.Props.C87_swap_star",
    "Dec.Props.C87_swap_laplacian",
    "Dec.Props.C87_swap_wedge",
    "Dec.Props.C87_swap_contraction",
    "Dec.Props.C87_move_projection",
    "Dec.Props.C87_swap_projection"
   ],
   "note": ""
  },
  {
   "property": "C88",
   "status": "proved",
   "theorems": [
    "Dec.Props.C88_transparent",
    "Dec.Props.C88_file",
    "Dec.Props.C88_own_results",
    "Dec.Props.C88_commit",
    "Dec.Props.C88_not_an_object",
    "Dec.Props.C88_exception",
    "Dec.Props.C88_array_runs",
    "Dec.Props.C88_overlap_wrong_answer"
   ],
   "note": ""
  },
  {
   "property": "C89",
   "status": "proved",
   "theorems": [
    "Dec.Props.C89_well_typed",
    "Dec.Props.C89_linear",
    "Dec.Props.C89_combination"
   ],
   "note": ""
  },
  {
   "property": "C90",
   "status": "proved",
   "theorems": [
    "Dec.Props.C90_exact",
    "Dec.Props.C90_identities",
    "Dec.Props.C90_product_rule"
   ],
   "note": ""
  },
  {
   "property": "C91",
   "status": "proved",
   "theorems": [
    "Dec.Props.C91_star_error",
    "Dec.Props.C91_reconstruction_error",
    "Dec.Props.C91_convergence",
    "Dec.Props.C91_geometric"
   ],
   "note": ""
  },
  {
   "property": "C92",
   "status": "proved",
   "theorems": [
    "Dec.Props.C92_simpson",
    "Dec.Props.C92_boole",
    "Dec.Props.C92_simpson_order",
    "Dec.Props.C92_boole_order",
    "Dec.Props.C92_boole1_order",
    "Dec.Props.C92_coarse",
    "Dec.Props.C92_spectral",
    "Dec.Props.C92_chebyshev",
    "Dec.Props.C92_chebyshev_dual",
    "Dec.Props.C92_convergence",
    "Dec.Props.C92_power_series",
    "Dec.Props.C92_power_series_grid"
   ],
   "note": ""
  },
  {
   "property": "C93",
   "status": "proved",
   "theorems": [
    "Dec.Props.C93_evaluate",
    "Dec.Props.C93_short",
    "Dec.Props.C93_project_back",
    "Dec.Props.C93_evaluate_projection",
    "Dec.Props.C93_arity",
    "Dec.Props.C93_degree",
    "Dec.Props.C93_refine",
    "Dec.Props.C93_refine_regular",
    "Dec.Props.C93_evaluate_2d",
    "Dec.Props.C93_short_2d",
    "Dec.Props.C93_arity_2d",
    "Dec.Props.C93_project_back_2d",
    "Dec.Props.C93_evaluate_projection_2d"
   ],
   "note": ""
  },
  {
   "property": "C94",
   "status": "proved",
   "theorems": [
    "Dec.Props.C94_stability",
    "Dec.Props.C94_stability_l2",
    "Dec.Props.C94_least_squares",
    "Dec.Props.C94_error",
    "Dec.Props.C94_convergence",
    "Dec.Props.C94_sine_series",
    "Dec.Props.C94_example"
   ],
   "note": ""
  },
  {
   "property": "C95",
   "status": "proved",
   "theorems": [
    "Dec.Props.C95_triangular",
    "Dec.Props.C95_same_operator",
    "Dec.Props.C95_inverse",
    "Dec.Props.C95_simple",
    "Dec.Props.C95_agrees",
    "Dec.Props.C95_accepts",
    "Dec.Props.C95_symmetric_singular"
   ],
   "note": ""
  },
  {
   "property": "C96",
   "status": "proved",
   "theorems": [
    "Dec.Props.C96_exact",
    "Dec.Props.C96_values",
    "Dec.Props.C96_no_boundary",
    "Dec.Props.C96_gradient",
    "Dec.Props.C96_curl",
    "Dec.Props.C96_divergence_dual",
    "Dec.Props.C96_divergence_primal",
    "Dec.Props.C96_lie"
   ],
   "note": ""
  },
  {
   "property": "C97",
   "status": "proved",
   "theorems": [
    "Dec.Props.C97_exact",
    "Dec.Props.C97_values",
    "Dec.Props.C97_no_boundary",
    "Dec.Props.C97_laplacian"
   ],
   "note": ""
  },
  {
   "property": "C98",
   "status": "proved",
   "theorems": [
    "Dec.Props.C98_citations",
    "Dec.Props.C98_labels",
    "Dec.Props.C98_references",
    "Dec.Props.C98_references_merge",
    "Dec.Props.C98_white_space",
    "Dec.Props.C98_any_directive",
    "Dec.Props.C98_pictures",
    "Dec.Props.C98_tabular_absent",
    "Dec.Props.C98_tabular",
    "Dec.Props.C98_doctests_conflict",
    "Dec.Props.C98_latex2rst_plain",
    "Dec.Props.C98_latex2rst_tabular",
    "Dec.Props.C98_latex2rst_error",
    "Dec.Props.C98_latex2rst_citations",
    "Dec.Props.C98_latex2rst_pictures",
    "Dec.Props.C98_latex2rst_labels",
    "Dec.Props.C98_latex2rst_references",
    "Dec.Props.C98_process",
    "Dec.Props.C98_failure_empties",
    "Dec.Props.C98_process_nothing",
    "Dec.Props.C98_first_failure"
   ],
   "note": ""
  },
  {
   "property": "C99",
   "status": "proved",
   "theorems": [
    "Dec.Props.C99_star_variant",
    "Dec.Props.C99_star_variant_singular",
    "Dec.Props.C99_hat",
    "Dec.Props.C99_weights",
    "Dec.Props.C99_matrix",
    "Dec.Props.C99_inverse",
    "Dec.Props.C99_inverse_signs",
    "Dec.Props.C99_dual_basis",
    "Dec.Props.C99_reconstruct",
    "Dec.Props.C99_linear"
   ],
   "note": ""
  },
  {
   "property": "C100",
   "status": "proved",
   "theorems": [
    "Dec.Props.C100_toeplitz"
   ],
   "note": ""
  },
  {
   "property": "C101",
   "status": "proved",
   "theorems": [
    "Dec.Props.C101_derivative_primal",
    "Dec.Props.C101_derivative_dual",
    "Dec.Props.C101_star_1d",
    "Dec.Props.C101_star",
    "Dec.Props.C101_words"
   ],
   "note": ""
  },
  {
   "property": "C102",
   "status": "proved",
   "theorems": [
    "Dec.Props.C102_star_basis",
    "Dec.Props.C102_star_basis_exists",
    "Dec.Props.C102_resample"
   ],
   "note": ""
  },
  {
   "property": "C103",
   "status": "proved",
   "theorems": [
    "Dec.Props.C103_decomposition",
    "Dec.Props.C103_orthogonal",
    "Dec.Props.C103_unique",
    "Dec.Props.C103_harmonic"
   ],
   "note": ""
  },
  {
   "property": "C104",
   "status": "proved",
   "theorems": [
    "Dec.Props.C104_inner_product",
    "Dec.Props.C104_condition",
    "Dec.Props.C104_inner_product_2d",
    "Dec.Props.C104_inner_product_2d_one",
    "Dec.Props.C104_condition_2d",
    "Dec.Props.C104_condition_2d_one",
    "Dec.Props.C104_weights_pos"
   ],
   "note": ""
  },
  {
   "property": "C105",
   "status": "proved",
   "theorems": [
    "Dec.Props.C105_exact",
    "Dec.Props.C105_derivative",
    "Dec.Props.C105_star",
    "Dec.Props.C105_energy",
    "Dec.Props.C105_kernel",
    "Dec.Props.C105_solvable",
    "Dec.Props.C105_rectangle"
   ],
   "note": ""
  },
  {
   "property": "C106",
   "status": "proved",
   "theorems": [
    "Dec.Props.C106_wedge_error",
    "Dec.Props.C106_contraction_error",
    "Dec.Props.C106_wedge_series",
    "Dec.Props.C106_convergence",
    "Dec.Props.C106_contraction_convergence",
    "Dec.Props.C106_wedge_error_2d",
    "Dec.Props.C106_contraction_error_2d",
    "Dec.Props.C106_recovers_series"
   ],
   "note": ""
  },
  {
   "property": "C107",
   "status": "proved",
   "theorems": [
    "Dec.Props.C107_chebyshev_round_trip",
    "Dec.Props.C107_chebyshev_right_inverse",
    "Dec.Props.C107_chebyshev_kernel",
    "Dec.Props.C107_chebyshev_least",
    "Dec.Props.C107_chebyshev_pinv",
    "Dec.Props.C107_periodic_round_trip",
    "Dec.Props.C107_periodic_invertible",
    "Dec.Props.C107_periodic_pinv"
   ],
   "note": ""
  },
  {
   "property": "C108",
   "status": "proved",
   "theorems": [
    "Dec.Props.C108_invariants",
    "Dec.Props.C108_sine",
    "Dec.Props.C108_wave",
    "Dec.Props.C108_flat_squeeze",
    "Dec.Props.C108_chebyshev",
    "Dec.Props.C108_polar",
    "Dec.Props.C108_powers",
    "Dec.Props.C108_circle",
    "Dec.Props.C108_cartesian_product",
    "Dec.Props.C108_lines",
    "Dec.Props.C108_limits",
    "Dec.Props.C108_colours",
    "Dec.Props.C108_limits_tight",
    "Dec.Props.C108_colours_tight"
   ],
   "note": ""
  },
  {
   "property": "C109",
   "status": "proved",
   "theorems": [
    "Dec.Props.C109_dirichlet_function",
    "Dec.Props.C109_dirichlet_error",
    "Dec.Props.C109_dirichlet_sign",
    "Dec.Props.C109_dirichlet_power_series",
    "Dec.Props.C109_dirichlet_example",
    "Dec.Props.C109_dirichlet_stability",
    "Dec.Props.C109_neumann_stability",
    "Dec.Props.C109_neumann_least_squares",
    "Dec.Props.C109_neumann_error",
    "Dec.Props.C109_neumann_example"
   ],
   "note": ""
  },
  {
   "property": "C110",
   "status": "proved",
   "theorems": [
    "Dec.Props.C110_lines_0",
    "Dec.Props.C110_lines_1",
    "Dec.Props.C110_dual_0",
    "Dec.Props.C110_primal_0"
   ],
   "note": ""
  },
  {
   "property": "C111",
   "status": "proved",
   "theorems": [
    "Dec.Props.C111_value_chebyshev",
    "Dec.Props.C111_value_power",
    "Dec.Props.C111_slope_chebyshev",
    "Dec.Props.C111_slope_power",
    "Dec.Props.C111_dual_2d",
    "Dec.Props.C111_primal_2d",
    "Dec.Props.C111_example_primal",
    "Dec.Props.C111_example_dual"
   ],
   "note": ""
  },
  {
   "property": "C112",
   "status": "proved",
   "theorems": [
    "Dec.Props.C112_edge",
    "Dec.Props.C112_zero",
    "Dec.Props.C112_one",
    "Dec.Props.C112_example_zero",
    "Dec.Props.C112_example_one"
   ],
   "note": ""
  },
  {
   "property": "C113",
   "status": "proved",
   "theorems": [
    "Dec.Props.C113_primal",
    "Dec.Props.C113_dual",
    "Dec.Props.C113_example_primal",
    "Dec.Props.C113_example_dual"
   ],
   "note": ""
  },
  {
   "property": "C114",
   "status": "proved",
   "theorems": [
    "Dec.Props.C114_segments",
    "Dec.Props.C114_dots",
    "Dec.Props.C114_curves",
    "Dec.Props.C114_peaks",
    "Dec.Props.C114_means",
    "Dec.Props.C114_unity",
    "Dec.Props.C114_scatter",
    "Dec.Props.C114_edge_labels",
    "Dec.Props.C114_face_labels"
   ],
   "note": ""
  },
  {
   "property": "C115",
   "status": "proved",
   "theorems": [
    "Dec.Props.C115_lie_wedge",
    "Dec.Props.C115_contraction_wedge",
    "Dec.Props.C115_lie_contraction",
    "Dec.Props.C115_lie_bracket",
    "Dec.Props.C115_bracket_contraction",
    "Dec.Props.C115_lie_multiple",
    "Dec.Props.C115_laplacian_commutes",
    "Dec.Props.C115_laplacian_product",
    "Dec.Props.C115_vector_identities",
    "Dec.Props.C115_isometry"
   ],
   "note": ""
  },
  {
   "property": "C116",
   "status": "proved",
   "theorems": [
    "Dec.Props.C116_points",
    "Dec.Props.C116_values",
    "Dec.Props.C116_integrals",
    "Dec.Props.C116_derivative",
    "Dec.Props.C116_dual_key",
    "Dec.Props.C116_dual_integrals",
    "Dec.Props.C116_reconstruct_zero",
    "Dec.Props.C116_reconstruct_one",
    "Dec.Props.C116_basis",
    "Dec.Props.C116_points_2d",
    "Dec.Props.C116_faces"
   ],
   "note": ""
  },
  {
   "property": "C117",
   "status": "proved",
   "theorems": [
    "Dec.Props.C117_kernel",
    "Dec.Props.C117_dirichlet",
    "Dec.Props.C117_neumann",
    "Dec.Props.C117_kernel_one",
    "Dec.Props.C117_solvable_one",
    "Dec.Props.C117_rectangle",
    "Dec.Props.C117_energy",
    "Dec.Props.C117_eigenvalue",
    "Dec.Props.C117_energy_2d",
    "Dec.Props.C117_eigenvalue_2d"
   ],
   "note": ""
  },
  {
   "property": "C118",
   "status": "proved",
   "theorems": [
    "Dec.Props.C118_left_product",
    "Dec.Props.C118_right_product",
    "Dec.Props.C118_associativity_error",
    "Dec.Props.C118_associative_in_the_limit",
    "Dec.Props.C118_spectral"
   ],
   "note": ""
  },
  {
   "property": "C119",
   "status": "proved",
   "theorems": [
    "Dec.Props.C119_velocity",
    "Dec.Props.C119_vorticity",
    "Dec.Props.C119_acceleration",
    "Dec.Props.C119_pressure",
    "Dec.Props.C119_printed_pressure_wrong",
    "Dec.Props.C119_periodic",
    "Dec.Props.C119_not_periodic",
    "Dec.Props.C119_fourier",
    "Dec.Props.C119_divergence_free"
   ],
   "note": ""
  },
  {
   "property": "C120",
   "status": "proved",
   "theorems": [
    "Dec.Props.C120_dual",
    "Dec.Props.C120_even_star",
    "Dec.Props.C120_odd_star",
    "Dec.Props.C120_not_inverse",
    "Dec.Props.C120_not_spanned",
    "Dec.Props.C120_only_even"
   ],
   "note": ""
  },
  {
   "property": "C121",
   "status": "proved",
   "theorems": [
    "Dec.Props.C121_construct",
    "Dec.Props.C121_chebyshev_mirror",
    "Dec.Props.C121_same_operators",
    "Dec.Props.C121_chebyshev_derivative",
    "Dec.Props.C121_chebyshev_star",
    "Dec.Props.C121_periodic_cells",
    "Dec.Props.C121_periodic_projection",
    "Dec.Props.C121_periodic_derivative",
    "Dec.Props.C121_periodic_star"
   ],
   "note": ""
  },
  {
   "property": "C122",
   "status": "proved",
   "theorems": [
    "Dec.Props.C122_leibniz",
    "Dec.Props.C122_sides",
    "Dec.Props.C122_leibniz_1d",
    "Dec.Props.C122_dual_fails"
   ],
   "note": ""
  },
  {
   "property": "C123",
   "status": "proved",
   "theorems": [
    "Dec.Props.C123_contraction",
    "Dec.Props.C123_contraction_2d",
    "Dec.Props.C123_differs"
   ],
   "note": ""
  },
  {
   "property": "C124",
   "status": "proved",
   "theorems": [
    "Dec.Props.C124_projection",
    "Dec.Props.C124_operators",
    "Dec.Props.C124_wedge",
    "Dec.Props.C124_derivative",
    "Dec.Props.C124_wedge_transfer",
    "Dec.Props.C124_wedge_exact_periodic",
    "Dec.Props.C124_contraction_off_periodic",
    "Dec.Props.C124_wedge_exact_chebyshev",
    "Dec.Props.C124_contraction_off_chebyshev",
    "Dec.Props.C124_unit_interval",
    "Dec.Props.C124_projection_2d",
    "Dec.Props.C124_operators_2d",
    "Dec.Props.C124_wedge_2d"
   ],
   "note": ""
  }
 ]
}