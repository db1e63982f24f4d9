{
 "claims": [
  {
   "property": "C01",
   "status": "proved",
   "theorems": [
    "PiBem.Octree.C01_leaves_partition"
   ],
   "note": ""
  },
  {
   "property": "C02",
   "status": "proved",
   "theorems": [
    "PiBem.Octree.C02_links_consistent"
   ],
   "note": ""
  },
  {
   "property": "C03",
   "status": "proved",
   "theorems": [
    "PiBem.Octree.C03_leaf_capacity"
   ],
   "note": ""
  },
  {
   "property": "C04",
   "status": "proved",
   "theorems": [
    "PiBem.Octree.C04_quad_point_map",
    "PiBem.Octree.C04_quad_point_map_unique"
   ],
   "note": ""
  },
  {
   "property": "C05",
   "status": "proved",
   "theorems": [
    "PiBem.Octree.C05_dof_map",
    "PiBem.Octree.C05_dof_map_refuted"
   ],
   "note": "Exact content of the map; the documented shape (one entry per level) is refuted by a concrete tree."
  },
  {
   "property": "C11",
   "status": "proved",
   "theorems": [
    "PiBem.Octree.C11_block_table_iff",
    "PiBem.Octree.C11_block_table_sufficient",
    "PiBem.Octree.C11_block_table_refuted"
   ],
   "note": "Exact condition of overflow, sufficient condition on the input, and a concrete input that overflows."
  },
  {
   "property": "C06",
   "status": "proved",
   "theorems": [
    "PiBem.Fmm.C06_every_interaction_once",
    "PiBem.Fmm.C06_value",
    "PiBem.Fmm.C06_executions_exist"
   ],
   "note": "Expansions are abstracted to collections of sources; hypotheses: depth >= 1, at least one quadrature point per cell, every node in its own double set (C30)."
  },
  {
   "property": "C09",
   "status": "proved",
   "theorems": [
    "PiBem.Fmm.C09_singular_cells_near"
   ],
   "note": ""
  },
  {
   "property": "C10",
   "status": "proved",
   "theorems": [
    "PiBem.Fmm.C10_upward_pass",
    "PiBem.Fmm.C10_value"
   ],
   "note": ""
  },
  {
   "property": "C12",
   "status": "proved",
   "theorems": [
    "PiBem.Fmm.C12_lists_split"
   ],
   "note": ""
  },
  {
   "property": "C14",
   "status": "proved",
   "theorems": [
    "PiBem.Fmm.C14_partition_independent"
   ],
   "note": ""
  },
  {
   "property": "C15",
   "status": "proved",
   "theorems": [
    "PiBem.Fmm.C15_rows_attributed",
    "PiBem.Fmm.C15_schedule_independent"
   ],
   "note": ""
  },
  {
   "property": "C49",
   "status": "proved",
   "theorems": [
    "PiBem.Fmm.C49_moments"
   ],
   "note": ""
  },
  {
   "property": "C07",
   "status": "proved",
   "theorems": [
    "PiBem.Fmm.C07_m2l_separated"
   ],
   "note": ""
  },
  {
   "property": "C08",
   "status": "proved",
   "theorems": [
    "PiBem.Fmm.C08_m2p_outside_ball"
   ],
   "note": "Hypothesis: quadrature points inside the root box |x| <= 1.1 max_coor_value (the nodes always are)."
  },
  {
   "property": "C13",
   "status": "proved",
   "theorems": [
    "PiBem.Fmm.C13_touching_blocks_pass",
    "PiBem.Fmm.C13_passing_blocks_close"
   ],
   "note": ""
  },
  {
   "property": "C16",
   "status": "proved",
   "theorems": [
    "PiBem.Expansion.C16_positions",
    "PiBem.Expansion.C16_read_write",
    "PiBem.Expansion.C16_new",
    "PiBem.Expansion.C16_overflow"
   ],
   "note": ""
  },
  {
   "property": "C17",
   "status": "proved",
   "theorems": [
    "PiBem.Expansion.C17_positions",
    "PiBem.Expansion.C17_read_write",
    "PiBem.Expansion.C17_overflow"
   ],
   "note": ""
  },
  {
   "property": "C18",
   "status": "proved",
   "theorems": [
    "PiBem.Expansion.C18_copy_keeps_prefix"
   ],
   "note": "Refutation of the natural expectation with the exact content of the copy."
  },
  {
   "property": "C19",
   "status": "proved",
   "theorems": [
    "PiBem.Expansion.Heap.C19_copies_are_values",
    "PiBem.Expansion.Heap.C19_copy_from_default_refuted",
    "PiBem.Expansion.Heap.C19_self_assignment_refuted",
    "PiBem.Expansion.Heap.C19_local_assignment_leaks"
   ],
   "note": ""
  },
  {
   "property": "C20",
   "status": "proved",
   "theorems": [
    "PiBem.Expansion.Lookups.C20_orders",
    "PiBem.Expansion.Lookups.C20_tables_build",
    "PiBem.Expansion.Lookups.C20_multipole_footprint",
    "PiBem.Expansion.Lookups.C20_local_footprint",
    "PiBem.Expansion.Lookups.C20_table_footprint",
    "PiBem.Expansion.Lookups.C20_reads"
   ],
   "note": "The lists of accesses contain all the entries the modelled operations depend on."
  },
  {
   "property": "C21",
   "status": "proved",
   "theorems": [
    "PiBem.Expansion.C21_zero_flag",
    "PiBem.Expansion.C21_add_vectors_out_of_bounds",
    "PiBem.Expansion.C21_add_vectors_flag_refuted"
   ],
   "note": "Exact real arithmetic; the Legendre tables are a parameter."
  },
  {
   "property": "C22",
   "status": "proved",
   "theorems": [
    "PiBem.Bem.C22_constrained_solution"
   ],
   "note": ""
  },
  {
   "property": "C23",
   "status": "proved",
   "theorems": [
    "PiBem.Bem.C23_linear_and_partition_independent"
   ],
   "note": ""
  },
  {
   "property": "C24",
   "status": "proved",
   "theorems": [
    "PiBem.Bem.C24_transpose_iff",
    "PiBem.Bem.C24_transpose_refuted",
    "PiBem.Bem.C24_vmult_accumulates",
    "PiBem.Bem.C24_vmult_value",
    "PiBem.Bem.C24_condensed_solution"
   ],
   "note": ""
  },
  {
   "property": "C34",
   "status": "proved",
   "theorems": [
    "PiBem.Bem.C34_constrained_rows",
    "PiBem.Bem.C34_refuted",
    "PiBem.Bem.C34_unconstrained_rows"
   ],
   "note": ""
  },
  {
   "property": "C25",
   "status": "proved",
   "theorems": [
    "PiBem.Bem.C25_system_is_bie",
    "PiBem.Bem.C25_after_solve"
   ],
   "note": "Exact arithmetic; the multipole products are the exact ones (truncation error not included)."
  },
  {
   "property": "C26",
   "status": "proved",
   "theorems": [
    "PiBem.Bem.C26_prescribed_data_kept"
   ],
   "note": ""
  },
  {
   "property": "C27",
   "status": "proved",
   "theorems": [
    "PiBem.Bem.C27_constants"
   ],
   "note": ""
  },
  {
   "property": "C28",
   "status": "proved",
   "theorems": [
    "PiBem.Bem.C28_action",
    "PiBem.Bem.C28_not_linear"
   ],
   "note": ""
  },
  {
   "property": "C29",
   "status": "proved",
   "theorems": [
    "PiBem.Bem.C29_complementary",
    "PiBem.Bem.C29_partition_independent",
    "PiBem.Bem.C29_partition_refuted",
    "PiBem.Bem.C29_masks"
   ],
   "note": ""
  },
  {
   "property": "C30",
   "status": "proved",
   "theorems": [
    "PiBem.Bem.C30_double_nodes",
    "PiBem.Bem.C30_not_transitive"
   ],
   "note": ""
  },
  {
   "property": "C31",
   "status": "proved",
   "theorems": [
    "PiBem.Bem.C31_double_node_constraints",
    "PiBem.Bem.C31_no_chains",
    "PiBem.Bem.C31_potential_single_valued"
   ],
   "note": "Before hanging node constraints are merged."
  },
  {
   "property": "C32",
   "status": "proved",
   "theorems": [
    "PiBem.Bem.C32_dead_branch",
    "PiBem.Bem.C32_flat_edge_not_finite"
   ],
   "note": ""
  },
  {
   "property": "C33",
   "status": "proved",
   "theorems": [
    "PiBem.Bem.C33_band"
   ],
   "note": ""
  },
  {
   "property": "C35",
   "status": "proved",
   "theorems": [
    "PiBem.Bem.C35_reordering"
   ],
   "note": ""
  },
  {
   "property": "C51",
   "status": "proved",
   "theorems": [
    "PiBem.Bem.C51_alpha_statics"
   ],
   "note": ""
  },
  {
   "property": "C52",
   "status": "proved",
   "theorems": [
    "PiBem.Bem.C52_rhs_output"
   ],
   "note": ""
  },
  {
   "property": "C53",
   "status": "proved",
   "theorems": [
    "PiBem.Bem.C53_band_entries"
   ],
   "note": ""
  },
  {
   "property": "C54",
   "status": "proved",
   "theorems": [
    "PiBem.Bem.C54_sharp_edge_exact"
   ],
   "note": ""
  },
  {
   "property": "C36",
   "status": "proved",
   "theorems": [
    "PiBem.Bem.C36_consistent_data",
    "PiBem.Bem.C36_data_for_solver",
    "PiBem.Bem.C36_shared_node_refuted"
   ],
   "note": ""
  },
  {
   "property": "C37",
   "status": "proved",
   "theorems": [
    "PiBem.Bem.C37_final_shift"
   ],
   "note": ""
  },
  {
   "property": "C38",
   "status": "proved",
   "theorems": [
    "PiBem.App.C38_spheroid",
    "PiBem.App.C38_refuted",
    "PiBem.App.C38_later_calls"
   ],
   "note": ""
  },
  {
   "property": "C39",
   "status": "proved",
   "theorems": [
    "PiBem.App.C39_singular_quadrature"
   ],
   "note": ""
  },
  {
   "property": "C40",
   "status": "proved",
   "theorems": [
    "PiBem.App.C40_driver"
   ],
   "note": ""
  },
  {
   "property": "C42",
   "status": "proved",
   "theorems": [
    "PiBem.Kernel.C42_single_double_layer",
    "PiBem.Kernel.C42_kernels_with_hessian",
    "PiBem.Kernel.C42_hypersingular",
    "PiBem.Kernel.C42_hypersingular_refuted"
   ],
   "note": ""
  },
  {
   "property": "C43",
   "status": "proved",
   "theorems": [
    "PiBem.Kernel.C43_skipped_faces",
    "PiBem.Kernel.C43_polar_points",
    "PiBem.Kernel.C43_polar_cover",
    "PiBem.Kernel.C43_polar_unique"
   ],
   "note": "atan2 is the argument in (-pi,pi]."
  },
  {
   "property": "C55",
   "status": "proved",
   "theorems": [
    "PiBem.Kernel.C55_hypersingular_subtraction",
    "PiBem.Kernel.C55_strongly_singular_subtraction"
   ],
   "note": "The cell is a C3 image of the plane regular at the singular point."
  },
  {
   "property": "C56",
   "status": "proved",
   "theorems": [
    "PiBem.Kernel.C56_finite_part"
   ],
   "note": ""
  },
  {
   "property": "C41",
   "status": "proved",
   "theorems": [
    "PiBem.App.C41_same_string",
    "PiBem.App.C41_history",
    "PiBem.App.C41_refuted"
   ],
   "note": ""
  },
  {
   "property": "C45",
   "status": "proved",
   "theorems": [
    "PiBem.App.C45_loops_bounded",
    "PiBem.App.C45_aspect_ratio",
    "PiBem.App.C45_curvature"
   ],
   "note": "The refinement of deal.II is an arbitrary function."
  },
  {
   "property": "C46",
   "status": "proved",
   "theorems": [
    "PiBem.App.C46_surface_access",
    "PiBem.App.C46_refuted"
   ],
   "note": ""
  },
  {
   "property": "C47",
   "status": "proved",
   "theorems": [
    "PiBem.App.C47_manifold_ids",
    "PiBem.App.C47_refuted",
    "PiBem.App.C47_files_read"
   ],
   "note": ""
  },
  {
   "property": "C50",
   "status": "proved",
   "theorems": [
    "PiBem.App.C50_double_vertices",
    "PiBem.App.C50_conformity",
    "PiBem.App.C50_out_of_bounds",
    "PiBem.App.C50_refuted"
   ],
   "note": ""
  },
  {
   "property": "C48",
   "status": "proved",
   "theorems": [
    "PiBem.Block.C48_copy_constructor",
    "PiBem.Block.C48_copy_content",
    "PiBem.Block.C48_self_copy",
    "PiBem.Block.C48_children",
    "PiBem.Block.C48_lists",
    "PiBem.Block.C48_lists_throw",
    "PiBem.Block.C48_contents",
    "PiBem.Block.C48_quads"
   ],
   "note": ""
  },
  {
   "property": "C44",
   "status": "proved",
   "theorems": [
    "PiBem.Legendre.C44_values",
    "PiBem.Legendre.C44_derivatives",
    "PiBem.Legendre.C44_sequences"
   ],
   "note": "All 462 function bodies are transcribed by tools/leggen.py; exact arithmetic."
  },
  {
   "property": "C57",
   "status": "proved",
   "theorems": [
    "PiBem.Expansion.C57_new",
    "PiBem.Expansion.C57_add_source",
    "PiBem.Expansion.C57_add_scaled",
    "PiBem.Expansion.C57_history",
    "PiBem.Expansion.codeTable_ok"
   ],
   "note": "Specification: Expansion/Potential.lean. Exact real arithmetic; charges at the centre and dipoles on the vertical axis (NaN in the program) excluded."
  },
  {
   "property": "C58",
   "status": "proved",
   "theorems": [
    "PiBem.Expansion.C58_add_normal_derivative"
   ],
   "note": "Exact real arithmetic."
  },
  {
   "property": "C59",
   "status": "proved",
   "theorems": [
    "PiBem.Expansion.C59_translation_exact"
   ],
   "note": "Exact real arithmetic."
  },
  {
   "property": "C60",
   "status": "proved",
   "theorems": [
    "PiBem.Expansion.C60_evaluation_error"
   ],
   "note": "Exact real arithmetic."
  },
  {
   "property": "C61",
   "status": "proved",
   "theorems": [
    "PiBem.Expansion.C61_zero_flag",
    "PiBem.Expansion.C61_translation_exact"
   ],
   "note": "Exact real arithmetic; centres at a distance in (0,1e-7] are treated as equal by the code and excluded."
  },
  {
   "property": "C62",
   "status": "proved",
   "theorems": [
    "PiBem.Expansion.C62_conversion_error"
   ],
   "note": "Order at most 10 because the table of Legendre functions ends at 20. Exact real arithmetic."
  },
  {
   "property": "C63",
   "status": "proved",
   "theorems": [
    "PiBem.Fmm.C63_product_error",
    "PiBem.Fmm.C63_executions_exist"
   ],
   "note": "end-to-end error bound of the product, for all schedules; simulation of the numeric executions by the symbolic ones of C06 and the expansion theorems C57-C62; exact real arithmetic"
  },
  {
   "property": "C64",
   "status": "proved",
   "theorems": [
    "PiBem.Bem.C64_dense_entry",
    "PiBem.Bem.C64_dense_other_rows",
    "PiBem.Bem.C64_partition",
    "PiBem.Bem.C64_dense_product",
    "PiBem.Bem.C64_methods_agree"
   ],
   "note": "Exact real arithmetic; mapped quadratures (points, normals, shape values, JxW) are data."
  },
  {
   "property": "C65",
   "status": "proved",
   "theorems": [
    "PiBem.Fmm.C65_fixed_matrix",
    "PiBem.Fmm.C65_deterministic",
    "PiBem.Fmm.C65_linear",
    "PiBem.Fmm.C65_constants",
    "PiBem.Fmm.C65_operator",
    "PiBem.Fmm.C65_entries"
   ],
   "note": "Exact real arithmetic (with rounding the schedule matters in the last digits); the two kernels are executed separately in the model."
  },
  {
   "property": "C66",
   "status": "proved",
   "theorems": [
    "PiBem.Bem.C66_unique_normals",
    "PiBem.Bem.C66_order",
    "PiBem.Bem.C66_alpha",
    "PiBem.Bem.C66_trace",
    "PiBem.Bem.C66_tensor",
    "PiBem.Bem.C66_symmetric",
    "PiBem.Bem.C66_smooth",
    "PiBem.Bem.C66_set",
    "PiBem.Bem.C66_convex_edge",
    "PiBem.Bem.C66_reentrant_edge",
    "PiBem.Bem.C66_reentrant_refuted",
    "PiBem.Bem.C66_angular_order",
    "PiBem.Bem.C66_free_b",
    "PiBem.Bem.C66_node_normals",
    "PiBem.Bem.C66_smooth_node",
    "PiBem.Bem.C66_convex_edge_node",
    "PiBem.Bem.C66_doubles_share",
    "PiBem.Bem.C66_convex_corner",
    "PiBem.Bem.C66_concave_corner",
    "PiBem.Bem.C66_concave_refuted",
    "PiBem.Bem.C66_cube_corner"
   ],
   "note": "Exact real arithmetic, dimension 3. Equality with the integrals over the directions of the domain for straight edges and for convex and concave corners with any number of flat faces; saddle corners are not considered."
  },
  {
   "property": "C67",
   "status": "proved",
   "theorems": [
    "PiBem.Grad.C67_projection",
    "PiBem.Grad.C67_best",
    "PiBem.Grad.C67_unique",
    "PiBem.Grad.C67_partition",
    "PiBem.Grad.C67_symmetric",
    "PiBem.Grad.C67_regular",
    "PiBem.Grad.C67_reproduces",
    "PiBem.Grad.C67_linear",
    "PiBem.Grad.C67_normals_plane",
    "PiBem.Grad.C67_normals_refuted"
   ],
   "note": "Exact solution of the assembled system assumed; GMRES not modelled. distribute_local_to_global by its documented contract."
  },
  {
   "property": "C68",
   "status": "proved",
   "theorems": [
    "PiBem.Bem.C68_equation",
    "PiBem.Bem.C68_kernels",
    "PiBem.Bem.C68_partition",
    "PiBem.Bem.C68_linear",
    "PiBem.Bem.C68_smooth",
    "PiBem.Bem.C68_distinct"
   ],
   "note": "Integrals of singular cells are data here (see C55, C56 for the integrator)."
  },
  {
   "property": "C69",
   "status": "proved",
   "theorems": [
    "PiBem.App.C69_phi",
    "PiBem.App.C69_grad",
    "PiBem.App.C69_dphi",
    "PiBem.App.C69_maxima",
    "PiBem.App.C69_l2",
    "PiBem.App.C69_phiLinf",
    "PiBem.App.C69_phiLinf_le",
    "PiBem.App.C69_refuted"
   ],
   "note": "integrate_difference by its documented contract."
  },
  {
   "property": "C70",
   "status": "proved",
   "theorems": [
    "PiBem.Kernel.C70_free_b_tangent",
    "PiBem.Kernel.C70_free_b_planar",
    "PiBem.Kernel.C70_free_b_centre",
    "PiBem.Kernel.C70_free_b_interior",
    "PiBem.Kernel.C70_free_b_interior_bound",
    "PiBem.Kernel.C70_free_b_smooth_node",
    "PiBem.Kernel.C70_free_b_factor",
    "PiBem.Kernel.C70_elevation",
    "PiBem.Kernel.C70_free_b_factor_refuted"
   ],
   "note": "b is added to the equation without the factor 1/(4 pi) of the other terms: refuted at non-smooth curved nodes."
  },
  {
   "property": "C71",
   "status": "proved",
   "theorems": [
    "PiBem.Fmm.C71_pattern_exact",
    "PiBem.Fmm.C71_pattern_rows",
    "PiBem.Fmm.C71_pattern_singular",
    "PiBem.Fmm.C71_executions_exist",
    "PiBem.Fmm.C71_final_pattern",
    "PiBem.Fmm.C71_final_writes"
   ],
   "note": "near field and preconditioner sparsity patterns; the positions are modelled, Trilinos storage and communication are not"
  },
  {
   "property": "C72",
   "status": "proved",
   "theorems": [
    "PiBem.Bem.C72_ownership",
    "PiBem.Bem.C72_full_pattern"
   ],
   "note": "the association of dofs with processes and the renumberings of deal.II are data (any function, any permutations)"
  },
  {
   "property": "C73",
   "status": "proved",
   "theorems": [
    "PiBem.Fmm.C73_map",
    "PiBem.Fmm.C73_every_history",
    "PiBem.Fmm.C73_lists",
    "PiBem.Fmm.C73_history_dependent"
   ],
   "note": "dof_to_elems is never cleared; all the other octree theorems are also stated for an arbitrary old content of the map"
  },
  {
   "property": "C74",
   "status": "proved",
   "theorems": [
    "PiBem.Kernel.C74_hypersingular",
    "PiBem.Kernel.C74_strongly_singular",
    "PiBem.Kernel.C74_exact_rules",
    "PiBem.Kernel.C74_unique"
   ],
   "note": "Finite part over the cell by change to polar coordinates per face (C43), Fubini and an estimate on rays uniform in the angle; the only difference from the value returned are the errors of the two quadrature rules, which appear explicitly. Assumes a three times differentiable map regular at the singular point and without a second preimage of it; real arithmetic."
  },
  {
   "property": "C75",
   "status": "proved",
   "theorems": [
    "PiBem.Bem.C75_constraints",
    "PiBem.Bem.C75_exception",
    "PiBem.Bem.C75_succeeds",
    "PiBem.Bem.C75_after_solve",
    "PiBem.Bem.C75_ghosts",
    "PiBem.Bem.C75_mixed_refuted"
   ],
   "note": "The wish that the potential be continuous at every hanging node is refuted for hanging Neumann nodes on the edge of a Dirichlet cell; what is interpolated is the unknown."
  },
  {
   "property": "C76",
   "status": "proved",
   "theorems": [
    "PiBem.Bem.C76_constants",
    "PiBem.Bem.C76_constants_fail",
    "PiBem.Bem.C76_superposition",
    "PiBem.Grad.C76_surface_gradients"
   ],
   "note": "Exact linear solve; existence of a unique solution is a hypothesis of the part on the returned solution."
  },
  {
   "property": "C77",
   "status": "proved",
   "theorems": [
    "PiBem.Bem.C77_integral_equation",
    "PiBem.Bem.C77_conditions",
    "PiBem.Bem.C77_two_results",
    "PiBem.Bem.C77_partition",
    "PiBem.Bem.stable_of_injective"
   ],
   "note": "Dimension 3, Dirichlet or mixed conditions. The linear solver is an arbitrary function; its residual enters the bounds. Stability of the dense system is a hypothesis of the comparison (implied by unique solvability)."
  },
  {
   "property": "C78",
   "status": "proved",
   "theorems": [
    "PiBem.Grad.C78_locality",
    "PiBem.Grad.C78_flat_face",
    "PiBem.Grad.C78_edges",
    "PiBem.Grad.C78_neumann_face",
    "PiBem.Grad.C78_mixed_refuted"
   ],
   "note": "Any dimension, mass matrix systems solved exactly. The wish that the surface gradients be those of the potential is refuted on Neumann faces and for cells with Dirichlet and Neumann nodes."
  },
  {
   "property": "C79",
   "status": "proved",
   "theorems": [
    "PiBem.Bem.C79_constant_defect",
    "PiBem.Bem.C79_unsolvable"
   ],
   "note": "Dimension 3, both methods, arbitrary linear solver. The wish that a pure Neumann solve satisfies the integral equation is refuted."
  },
  {
   "property": "C80",
   "status": "proved",
   "theorems": [
    "PiBem.App.C80_conformity",
    "PiBem.App.C80_after_refinement",
    "PiBem.App.C80_coarsening_refuted",
    "PiBem.App.C80_mesh_ends",
    "PiBem.App.C80_mesh_conforming",
    "PiBem.App.C80_mesh_example"
   ],
   "note": "Straight doubled edges of the coarse mesh, exact arithmetic. Several doubled edges: refinement of a pass is a relation with the library contracts (each edge bisected at most once, all flagged ones, bound on bisections kept by smoothing); vertices of different edges farther apart than the tolerance. The wish that conformity is always restored is refuted for cycles with coarsening."
  },
  {
   "property": "C81",
   "status": "proved",
   "theorems": [
    "PiBem.Bem.C81_history",
    "PiBem.Bem.C81_new_run",
    "PiBem.Bem.C81_gap",
    "PiBem.Bem.C81_spheroid_refuted",
    "PiBem.Bem.C81_partition_refuted"
   ],
   "note": "State kept between cycles: function-level statics of the free coefficient product and of the singular quadratures, the unreset cell lists of the fast multipole data, the mapping object. The wish that a cycle is always equal to a new run on the same mesh is refuted for the spheroid option and for a new partition of the same number of dofs."
  },
  {
   "property": "C82",
   "status": "proved",
   "theorems": [
    "PiBem.Bem.C82_same_rows",
    "PiBem.Bem.C82_exact_solutions",
    "PiBem.Bem.C82_every_node",
    "PiBem.Bem.C82_different_data",
    "PiBem.Bem.C82_not_unique"
   ],
   "note": "Both methods. No hanging nodes. C82_exact_solutions covers the conditions for continuous gradients, corners included if the surface gradients are consistent (C92; otherwise see C83)."
  },
  {
   "property": "C83",
   "status": "proved",
   "theorems": [
    "PiBem.Bem.C83_matrices",
    "PiBem.Bem.C83_exact",
    "PiBem.Bem.C83_same_result",
    "PiBem.Bem.C83_corner_refuted"
   ],
   "note": "Both methods, no hanging nodes; exact linear solves. Corners with three Dirichlet nodes, the gradient option on and inconsistent surface gradients are an exception (bounded in C92), exhibited by C83_corner_refuted. Equality of normals and surface gradients, assumed here, is proved in C89."
  },
  {
   "property": "C84",
   "status": "proved",
   "theorems": [
    "PiBem.App.C84_direction_flat",
    "PiBem.App.C84_direction_motion",
    "PiBem.App.C84_direction_orientation",
    "PiBem.App.C84_flag",
    "PiBem.App.C84_sphere",
    "PiBem.App.C84_no_surface",
    "PiBem.App.C84_no_surface_refuted",
    "PiBem.App.C84_undefined",
    "PiBem.App.C84_loop"
   ],
   "note": "Exact real arithmetic; the CAD library (line intersection, differential forms) is an arbitrary function; execute_coarsening_and_refinement is arbitrary."
  },
  {
   "property": "C85",
   "status": "proved",
   "theorems": [
    "PiBem.Bem.C85_matrices",
    "PiBem.Bem.C85_exact",
    "PiBem.Bem.C85_same_result",
    "PiBem.Bem.C85_same_run",
    "PiBem.Bem.C85_double_nodes",
    "PiBem.Bem.C85_units_refuted",
    "PiBem.Bem.C85_hanging_units",
    "PiBem.Bem.C85_hanging",
    "PiBem.Bem.C85_hanging_dimension3",
    "PiBem.Bem.C85_hanging_units_refuted",
    "PiBem.Grad.C85_gradients",
    "PiBem.Grad.C85_surface_gradients"
   ],
   "note": "Dense method, three dimensions; with hanging nodes the conditions are exactly those of C85_hanging_units; exact real arithmetic."
  },
  {
   "property": "C86",
   "status": "proved",
   "theorems": [
    "PiBem.Bem.Plane.C86_entry",
    "PiBem.Bem.Plane.C86_partition",
    "PiBem.Bem.Plane.C86_no_fma",
    "PiBem.Bem.Plane.C86_integral_equation",
    "PiBem.Bem.Plane.C86_units",
    "PiBem.Bem.Plane.C86_units_equation",
    "PiBem.Bem.Plane.C86_motion",
    "PiBem.Bem.Plane.C86_degenerate_scale"
   ],
   "note": "Dimension 2, dense method; exact real arithmetic; the singular quadrature is an arbitrary list of points per cell and local dof; in the statements on similarities no quadrature point lies on its node."
  },
  {
   "property": "C87",
   "status": "proved",
   "theorems": [
    "PiBem.Bem.Plane.C87_normals",
    "PiBem.Bem.Plane.C87_tensor",
    "PiBem.Bem.Plane.C87_smooth",
    "PiBem.Bem.Plane.C87_corner",
    "PiBem.Bem.Plane.C87_tensor_refuted",
    "PiBem.Bem.Plane.C87_b"
   ],
   "note": "Dimension 2; exact real arithmetic; normals of the cells at support points are data."
  },
  {
   "property": "C88",
   "status": "proved",
   "theorems": [
    "PiBem.Fmm.C88_small_domain_exact",
    "PiBem.Fmm.C88_methods_coincide",
    "PiBem.Fmm.C88_one_level_exact",
    "PiBem.Fmm.C88_depends_on_unit"
   ],
   "note": "Exact real arithmetic. The tolerance of the neighbour test is absolute, so the unit of length decides whether expansions are used."
  },
  {
   "property": "C89",
   "status": "proved",
   "theorems": [
    "PiBem.Grad.C89_recovered",
    "PiBem.Bem.C89_positions",
    "PiBem.Bem.C89_nodes",
    "PiBem.Bem.C89_gradient",
    "PiBem.Bem.C89_setup",
    "PiBem.Bem.C89_same_result",
    "PiBem.Bem.C89_plane"
   ],
   "note": "Exact real arithmetic, exact solves. The mass matrix must be positive definite on the fields that satisfy the constraints (true when the quadrature determines the finite element functions)."
  },
  {
   "property": "C90",
   "status": "proved",
   "theorems": [
    "PiBem.Bem.C90_ghosts",
    "PiBem.Bem.C90_store",
    "PiBem.Bem.C90_too_many_processes",
    "PiBem.Bem.C90_cell_without_dofs"
   ],
   "note": "deal.II's association of dofs with subdomains (smallest subdomain wins) is a library contract."
  },
  {
   "property": "C91",
   "status": "proved",
   "theorems": [
    "PiBem.Bem.C91_exact_solutions",
    "PiBem.Bem.C91_renumbered_exact",
    "PiBem.Bem.C91_same_result",
    "PiBem.Bem.C91_rows3",
    "PiBem.Bem.C91_dimension3",
    "PiBem.Bem.Plane.C91_matrices2",
    "PiBem.Bem.Plane.C91_rows2",
    "PiBem.Bem.Plane.C91_plane"
   ],
   "note": "Extends C82 and C83 to hanging nodes and to dimension 2. Hanging nodes that are double nodes at the same time (C75) are excluded."
  },
  {
   "property": "C92",
   "status": "proved",
   "theorems": [
    "PiBem.Bem.C92_corner_error",
    "PiBem.Bem.C92_corner_exact",
    "PiBem.Bem.C92_corner_numbering",
    "PiBem.Bem.Consistent.ofTwo",
    "PiBem.Bem.Consistent.ofGradient"
   ],
   "note": "Any dimension, any matrices with equal rows at double nodes, hanging nodes allowed. Exact linear solves."
  },
  {
   "property": "C93",
   "status": "proved",
   "theorems": [
    "PiBem.App.C93_nonnegative",
    "PiBem.App.C93_minus_one",
    "PiBem.App.C93_negative",
    "PiBem.App.C93_negative_global"
   ],
   "note": "Machine arithmetic of the driver loop; the pattern of the input file accepts negative values, which are not what the user asked for."
  },
  {
   "property": "C94",
   "status": "proved",
   "theorems": [
    "PiBem.Bem.C94_conditions",
    "PiBem.Bem.C94_jump",
    "PiBem.Bem.C94_tolerance",
    "PiBem.Bem.C94_small_data",
    "PiBem.Bem.C94_small_data_zero"
   ],
   "note": "GMRES enters through its stopping test (left preconditioned residual, absolute tolerance) and its initial guess zero; dimension 2 and 3."
  },
  {
   "property": "C95",
   "status": "proved",
   "theorems": [
    "PiBem.Bem.C95_one_copy",
    "PiBem.Bem.C95_replicated",
    "PiBem.Bem.C95_new_runs",
    "PiBem.Bem.C95_processes",
    "PiBem.Bem.C95_marks_stable",
    "PiBem.Bem.C95_marks_refuted"
   ],
   "note": "Error estimator, marking, mesh refinement and edge conformity of the library are arbitrary functions, equal on all processes; marking enters C95_marks_* through its documented effect (FixedNumber). Dimension 3, with Dirichlet nodes."
  },
  {
   "property": "C96",
   "status": "proved",
   "theorems": [
    "PiBem.Fmm.C96_vmult",
    "PiBem.Fmm.C96_rhs",
    "PiBem.Fmm.C96_alpha",
    "PiBem.Fmm.C96_pending"
   ],
   "note": "Distributed Trilinos vectors by their documented contract (owned entries and pending additions); exact real arithmetic."
  },
  {
   "property": "C97",
   "status": "proved",
   "theorems": [
    "PiBem.Fmm.C97_no_expansions",
    "PiBem.Fmm.C97_zero_nodes",
    "PiBem.Fmm.C97_levels",
    "PiBem.Fmm.C97_block_table",
    "PiBem.Fmm.C97_order"
   ],
   "note": "Patterns::Integer and the conversion to unsigned int by their contracts; memory exhaustion for the huge values is not modelled."
  },
  {
   "property": "C98",
   "status": "proved",
   "theorems": [
    "PiBem.Fmm.C98_interleaving",
    "PiBem.Fmm.C98_conflicts",
    "PiBem.Fmm.C98_ends",
    "PiBem.Fmm.C98_fixed_matrix",
    "PiBem.Fmm.C98_race",
    "PiBem.Fmm.C98_example"
   ],
   "note": "Sequentially consistent memory; real arithmetic; the preconditioner and the allocator not included. Strict absence of data races is refuted by C98_race: the property states exactly which locations are raced on."
  },
  {
   "property": "C99",
   "status": "proved",
   "theorems": [
    "PiBem.App.C99_reached",
    "PiBem.App.C99_unreachable",
    "PiBem.App.C99_oscillates",
    "PiBem.App.C99_threshold",
    "PiBem.App.C99_example"
   ],
   "note": "Flat parallelogram cells; meshes on which deal.II refines the flagged cells only."
  },
  {
   "property": "C100",
   "status": "proved",
   "theorems": [
    "PiBem.Fmm.C100_near_field",
    "PiBem.Fmm.C100_two_runs",
    "PiBem.Fmm.C100_exists",
    "PiBem.Fmm.C100_dense",
    "PiBem.Fmm.C100_product",
    "PiBem.Fmm.C100_constants",
    "PiBem.Fmm.C100_example"
   ],
   "note": "Standard model of floating point arithmetic, no overflow or underflow; values of kernels, shape functions and weights as computed; the expansions (far field) are not included."
  },
  {
   "property": "C101",
   "status": "proved",
   "theorems": [
    "PiBem.Mpi.C101_no_deadlock",
    "PiBem.Mpi.C101_ends",
    "PiBem.Mpi.C101_idle_process",
    "PiBem.Mpi.C101_contract",
    "PiBem.Mpi.C101_flag",
    "PiBem.Mpi.C101_meshes",
    "PiBem.Mpi.C101_idle_cycle",
    "PiBem.Mpi.C101_cycle_example",
    "PiBem.Mpi.C101_example"
   ],
   "note": "Library contracts: hidden assemblies of Trilinos objects, decisions of the Krylov solvers depend on replicated answers, constraints are distributed with one ghost exchange and one compress. Values of the vectors are not modelled."
  },
  {
   "property": "C102",
   "status": "proved",
   "theorems": [
    "PiBem.Bem.C102_same",
    "PiBem.Bem.C102_higher",
    "PiBem.Bem.C102_lower",
    "PiBem.Bem.C102_unowned",
    "PiBem.Bem.C102_data",
    "PiBem.Bem.C102_example"
   ],
   "note": "Continuous elements. Library contract: numbering of distribute_dofs by first visit, component_wise; the renumberings by subdomains are permutations."
  },
  {
   "property": "C103",
   "status": "proved",
   "theorems": [
    "PiBem.App.Files.C103_complete_run",
    "PiBem.App.Files.C103_can_end",
    "PiBem.App.Files.C103_crash",
    "PiBem.App.Files.C103_crash_mesh",
    "PiBem.App.Files.C103_one_process",
    "PiBem.App.Files.C103_stale",
    "PiBem.App.Files.C103_torn",
    "PiBem.App.Files.C103_example"
   ],
   "note": "Library contracts: opening a stream truncates; data reaches the file in pieces in order, at the position of the stream; the writers of deal.II flush at the end. Contents are functions of the mesh, equal on all processes (C95). Not modelled: disk errors, losses in the operating system."
  },
  {
   "property": "C104",
   "status": "proved",
   "theorems": [
    "PiBem.App.Setup.C104_ids",
    "PiBem.App.Setup.C104_conditions",
    "PiBem.App.Setup.C104_sets",
    "PiBem.App.Setup.C104_example"
   ],
   "note": "Library contracts: split_string_list, istringstream >> unsigned, Patterns::List(Integer(0)). Signs in the numbers are not modelled."
  },
  {
   "property": "C105",
   "status": "proved",
   "theorems": [
    "PiBem.App.Setup.C105_files",
    "PiBem.App.Setup.C105_tolerance",
    "PiBem.App.Setup.C105_geometry",
    "PiBem.App.Setup.C105_example"
   ],
   "note": "Library contracts: children inherit manifold ids; an id without manifold is flat. The geometry of the manifolds is not modelled."
  },
  {
   "property": "C106",
   "status": "proved",
   "theorems": [
    "PiBem.App.Params.C106_accepted",
    "PiBem.App.Params.C106_values",
    "PiBem.App.Params.C106_irrelevant",
    "PiBem.App.Params.C106_idlist",
    "PiBem.App.Params.C106_rules",
    "PiBem.App.Params.C106_example"
   ],
   "note": "Library contracts: ParameterHandler, ParameterAcceptor::initialize for an existing file, SolverControl, ParsedFunction, QuadratureSelector. Not modelled: text layout of the file, interpretation of the expressions, value of a floating point text."
  },
  {
   "property": "C107",
   "status": "proved",
   "theorems": [
    "PiBem.Fmm.C107_one_block",
    "PiBem.Fmm.C107_product",
    "PiBem.Fmm.C107_linear",
    "PiBem.Fmm.C107_node_evaluations",
    "PiBem.Fmm.C107_unresolved",
    "PiBem.Fmm.C107_example"
   ],
   "note": "Counts of the loops between two blocks, for one process owning all rows; the time of a single operation is not modelled. Hypotheses of the linear cost: finest boxes larger than the tolerance 0.001 of the neighbour tests and than the distance of a node from the points of its cells. C107_unresolved: without the first hypothesis the cost is quadratic in the number of leaves."
  },
  {
   "property": "C108",
   "status": "proved",
   "theorems": [
    "PiBem.Bem.C108_octree",
    "PiBem.Bem.C108_lists",
    "PiBem.Bem.C108_matrix",
    "PiBem.Bem.C108_product",
    "PiBem.Bem.C108_exact",
    "PiBem.Bem.C108_same_result"
   ],
   "note": "Units in which the finest boxes are larger than the tolerance 0.001 of the neighbour tests; C88_depends_on_unit shows that the hypothesis is needed. Real arithmetic. C85 is the dense method."
  },
  {
   "property": "C109",
   "status": "proved",
   "theorems": [
    "PiBem.Fmm.C109_no_expansions",
    "PiBem.Fmm.C109_few_blocks",
    "PiBem.Fmm.C109_product",
    "PiBem.Fmm.C109_displacement",
    "PiBem.Fmm.C109_depends_on_position"
   ],
   "note": "Quadrature points within the extent of the surface. Lists and few blocks in dimensions 2 and 3, the product in dimension 3."
  },
  {
   "property": "C110",
   "status": "proved",
   "theorems": [
    "PiBem.Mpi.C110_schedule",
    "PiBem.Mpi.C110_same_status",
    "PiBem.Mpi.C110_success",
    "PiBem.Mpi.C110_failure",
    "PiBem.Mpi.C110_idle",
    "PiBem.Mpi.C110_zero_means",
    "PiBem.Mpi.C110_all_or_none",
    "PiBem.Mpi.C110_idle_cycle",
    "PiBem.Mpi.C110_not_solved",
    "PiBem.Mpi.C110_zero_iff",
    "PiBem.Mpi.C110_zero_says",
    "PiBem.Mpi.C110_more_processes"
   ],
   "note": "The messages of main and the treatment of a failed process by the launcher are not modelled."
  },
  {
   "property": "C111",
   "status": "proved",
   "theorems": [
    "PiBem.Bem.C111_matrices",
    "PiBem.Bem.C111_product",
    "PiBem.Bem.C111_alpha",
    "PiBem.Bem.C111_boundary_data",
    "PiBem.Bem.C111_exact",
    "PiBem.Bem.C111_same_result",
    "PiBem.Bem.C111_hanging_related",
    "PiBem.Bem.C111_hanging",
    "PiBem.Grad.C111_normals",
    "PiBem.Grad.C111_gradients"
   ],
   "note": "Exact real arithmetic; the orientation enters only through the normals given by deal.II (a reversed cell also numbers its nodes otherwise: that part is C83)."
  },
  {
   "property": "C112",
   "status": "proved",
   "theorems": [
    "PiBem.Bem.C112_signs",
    "PiBem.Bem.C112_alpha",
    "PiBem.Bem.C112_maximum",
    "PiBem.Bem.C112_unique",
    "PiBem.Bem.C112_comparison",
    "PiBem.Bem.C112_one_dirichlet",
    "PiBem.Bem.C112_flux",
    "PiBem.Bem.C112_neumann",
    "PiBem.Bem.Plane.C112_plane_signs",
    "PiBem.Bem.Plane.C112_plane_maximum",
    "PiBem.Bem.Plane.C112_plane_unique",
    "PiBem.Bem.C112_hanging"
   ],
   "note": "Exact real arithmetic; dense method, dimensions 2 and 3. The single layer kernel of the plane has no sign: there the statements on it do not hold. The fast multipole method approximates the same matrices (C77), so the signs hold for it only up to the errors of the expansions."
  },
  {
   "property": "C113",
   "status": "proved",
   "theorems": [
    "PiBem.Bem.C113_matrices",
    "PiBem.Bem.C113_alpha",
    "PiBem.Bem.C113_exact",
    "PiBem.Bem.C113_symmetric",
    "PiBem.Bem.C113_odd",
    "PiBem.Bem.C113_hanging_exact",
    "PiBem.Bem.C113_hanging",
    "PiBem.Bem.C113_dimension3",
    "PiBem.Bem.Plane.C113_plane_matrices",
    "PiBem.Bem.Plane.C113_plane"
   ],
   "note": "Exact real arithmetic; dense method. `C113_symmetric` is for conforming meshes in dimension 3; `C113_hanging` for meshes with hanging nodes, in dimensions 3 (`C113_dimension3`) and 2 (`C113_plane`). The octree of the fast multipole method is in general not mapped to itself, so there the symmetry holds only up to the errors of the expansions."
  },
  {
   "property": "C114",
   "status": "proved",
   "theorems": [
    "PiBem.Bem.C114_every_data",
    "PiBem.Bem.C114_one_datum",
    "PiBem.Bem.C114_otherwise",
    "PiBem.Bem.C114_convex",
    "PiBem.Bem.C114_hanging",
    "PiBem.Bem.C114_convex_hanging",
    "PiBem.Bem.C114_returns",
    "PiBem.Bem.C114_all_data"
   ],
   "note": "Exact real arithmetic; problems with a Dirichlet node (pure Neumann problems: C79). The matrices are any two matrices, so the statements hold for the dense method in dimensions 2 and 3 and for the fast multipole method. Conditions at Dirichlet nodes with parallel normals, which are not finite (C32), are excluded by hypothesis."
  },
  {
   "property": "C115",
   "status": "proved",
   "theorems": [
    "PiBem.Bem.C115_balance",
    "PiBem.Bem.C115_unique",
    "PiBem.Bem.C115_compatible",
    "PiBem.Bem.C115_tolerance",
    "PiBem.Bem.C115_solve",
    "PiBem.Bem.C115_one_dirichlet",
    "PiBem.Bem.C115_neumann",
    "PiBem.Bem.C115_neumann_iff",
    "PiBem.Bem.C115_conservation",
    "PiBem.Bem.C115_method",
    "PiBem.Bem.C115_stops",
    "PiBem.Bem.C115_stops_one_dirichlet",
    "PiBem.Bem.C115_hanging",
    "PiBem.Bem.C115_hanging_compatible",
    "PiBem.Bem.C115_hanging_unique",
    "PiBem.Bem.C115_hanging_solve",
    "PiBem.Bem.C115_hanging_one_dirichlet",
    "PiBem.Bem.C115_convex_hanging",
    "PiBem.Bem.Plane.C115_plane_balance",
    "PiBem.Bem.Plane.C115_plane_compatible",
    "PiBem.Bem.Plane.C115_plane_solve",
    "PiBem.Bem.Plane.C115_plane_small"
   ],
   "note": "Exact real arithmetic; dense method, dimension 3; fast multipole method: C115_method, up to the errors of its products; dimension 2: the C115_plane theorems, conforming meshes. Hanging nodes: the C115_hanging theorems, for any two matrices with the signs of convex surfaces. C115_neumann: conforming meshes, pure Neumann solves without residual and without double nodes."
  }
 ]
}