import json
C=[]
def c(p,s,th,n): C.append({"property":p,"status":s,"theorems":th,"note":n})
c("C01","proved",["PiBem.Octree.C01_leaves_partition"],"")
c("C02","proved",["PiBem.Octree.C02_links_consistent"],"")
c("C03","proved",["PiBem.Octree.C03_leaf_capacity"],"")
c("C04","proved",["PiBem.Octree.C04_quad_point_map","PiBem.Octree.C04_quad_point_map_unique"],"")
c("C05","proved",["PiBem.Octree.C05_dof_map","PiBem.Octree.C05_dof_map_refuted"],"Exact content of the map; the documented shape (one entry per level) is refuted by a concrete tree.")
c("C11","proved",["PiBem.Octree.C11_block_table_iff","PiBem.Octree.C11_block_table_sufficient","PiBem.Octree.C11_block_table_refuted"],"Exact condition of overflow, sufficient condition on the input, and a concrete input that overflows.")
F="PiBem.Fmm."
c("C06","proved",[F+"C06_every_interaction_once",F+"C06_value",F+"C06_executions_exist"],"Expansions are abstracted to collections of sources; hypotheses: depth >= 1, at least one quadrature point per cell, every node in its own double set (C30).")
c("C09","proved",[F+"C09_singular_cells_near"],"")
c("C10","proved",[F+"C10_upward_pass",F+"C10_value"],"")
c("C12","proved",[F+"C12_lists_split"],"")
c("C14","proved",[F+"C14_partition_independent"],"")
c("C15","proved",[F+"C15_rows_attributed",F+"C15_schedule_independent"],"")
c("C49","proved",[F+"C49_moments"],"")
c("C07","proved",[F+"C07_m2l_separated"],"")
c("C08","proved",[F+"C08_m2p_outside_ball"],"Hypothesis: quadrature points inside the root box |x| <= 1.1 max_coor_value (the nodes always are).")
c("C13","proved",[F+"C13_touching_blocks_pass",F+"C13_passing_blocks_close"],"")
E="PiBem.Expansion."
c("C16","proved",[E+"C16_positions",E+"C16_read_write",E+"C16_new",E+"C16_overflow"],"")
c("C17","proved",[E+"C17_positions",E+"C17_read_write",E+"C17_overflow"],"")
c("C18","proved",[E+"C18_copy_keeps_prefix"],"Refutation of the natural expectation with the exact content of the copy.")
H=E+"Heap."
c("C19","proved",[H+"C19_copies_are_values",H+"C19_copy_from_default_refuted",H+"C19_self_assignment_refuted",H+"C19_local_assignment_leaks"],"")
c("C20","proved",[E+"Lookups.C20_orders",E+"Lookups.C20_tables_build",E+"Lookups.C20_multipole_footprint",E+"Lookups.C20_local_footprint",E+"Lookups.C20_table_footprint",E+"Lookups.C20_reads"],"The lists of accesses contain all the entries the modelled operations depend on.")
c("C21","proved",[E+"C21_zero_flag",E+"C21_add_vectors_out_of_bounds",E+"C21_add_vectors_flag_refuted"],"Exact real arithmetic; the Legendre tables are a parameter.")
B="PiBem.Bem."
c("C22","proved",[B+"C22_constrained_solution"],"")
c("C23","proved",[B+"C23_linear_and_partition_independent"],"")
c("C24","proved",[B+"C24_transpose_iff",B+"C24_transpose_refuted",B+"C24_vmult_accumulates",B+"C24_vmult_value",B+"C24_condensed_solution"],"")
c("C34","proved",[B+"C34_constrained_rows",B+"C34_refuted",B+"C34_unconstrained_rows"],"")
c("C25","proved",[B+"C25_system_is_bie",B+"C25_after_solve"],"Exact arithmetic; the multipole products are the exact ones (truncation error not included).")
c("C26","proved",[B+"C26_prescribed_data_kept"],"")
c("C27","proved",[B+"C27_constants"],"")
c("C28","proved",[B+"C28_action",B+"C28_not_linear"],"")
c("C29","proved",[B+"C29_complementary",B+"C29_partition_independent",B+"C29_partition_refuted",B+"C29_masks"],"")
c("C30","proved",[B+"C30_double_nodes",B+"C30_not_transitive"],"")
c("C31","proved",[B+"C31_double_node_constraints",B+"C31_no_chains",B+"C31_potential_single_valued"],"Before hanging node constraints are merged.")
c("C32","proved",[B+"C32_dead_branch",B+"C32_flat_edge_not_finite"],"")
c("C33","proved",[B+"C33_band"],"")
c("C35","proved",[B+"C35_reordering"],"")
c("C51","proved",[B+"C51_alpha_statics"],"")
c("C52","proved",[B+"C52_rhs_output"],"")
c("C53","proved",[B+"C53_band_entries"],"")
c("C54","proved",[B+"C54_sharp_edge_exact"],"")
c("C36","proved",[B+"C36_consistent_data",B+"C36_data_for_solver",B+"C36_shared_node_refuted"],"")
c("C37","proved",[B+"C37_final_shift"],"")
A="PiBem.App."
c("C38","proved",[A+"C38_spheroid",A+"C38_refuted",A+"C38_later_calls"],"")
c("C39","proved",[A+"C39_singular_quadrature"],"")
c("C40","proved",[A+"C40_driver"],"")
K="PiBem.Kernel."
c("C42","proved",[K+"C42_single_double_layer",K+"C42_kernels_with_hessian",K+"C42_hypersingular",K+"C42_hypersingular_refuted"],"")
c("C43","proved",[K+"C43_skipped_faces",K+"C43_polar_points",K+"C43_polar_cover",K+"C43_polar_unique"],"atan2 is the argument in (-pi,pi].")
c("C55","proved",[K+"C55_hypersingular_subtraction",K+"C55_strongly_singular_subtraction"],"The cell is a C3 image of the plane regular at the singular point.")
c("C56","proved",[K+"C56_finite_part"],"")
c("C41","proved",[A+"C41_same_string",A+"C41_history",A+"C41_refuted"],"")
c("C45","proved",[A+"C45_loops_bounded",A+"C45_aspect_ratio",A+"C45_curvature"],"The refinement of deal.II is an arbitrary function.")
c("C46","proved",[A+"C46_surface_access",A+"C46_refuted"],"")
c("C47","proved",[A+"C47_manifold_ids",A+"C47_refuted",A+"C47_files_read"],"")
c("C50","proved",[A+"C50_double_vertices",A+"C50_conformity",A+"C50_out_of_bounds",A+"C50_refuted"],"")
c("C48","proved",["PiBem.Block.C48_copy_constructor","PiBem.Block.C48_copy_content","PiBem.Block.C48_self_copy","PiBem.Block.C48_children","PiBem.Block.C48_lists","PiBem.Block.C48_lists_throw","PiBem.Block.C48_contents","PiBem.Block.C48_quads"],"")
c("C44","proved",["PiBem.Legendre.C44_values","PiBem.Legendre.C44_derivatives","PiBem.Legendre.C44_sequences"],"All 462 function bodies are transcribed by tools/leggen.py; exact arithmetic.")
c("C57","proved",[E+"C57_new",E+"C57_add_source",E+"C57_add_scaled",E+"C57_history",E+"codeTable_ok"],"Specification: Expansion/Potential.lean. Exact real arithmetic; charges at the centre and dipoles on the vertical axis (NaN in the program) excluded.")
c("C58","proved",[E+"C58_add_normal_derivative"],"Exact real arithmetic.")
c("C59","proved",[E+"C59_translation_exact"],"Exact real arithmetic.")
c("C60","proved",[E+"C60_evaluation_error"],"Exact real arithmetic.")
c("C61","proved",[E+"C61_zero_flag",E+"C61_translation_exact"],"Exact real arithmetic; centres at a distance in (0,1e-7] are treated as equal by the code and excluded.")
c("C62","proved",[E+"C62_conversion_error"],"Order at most 10 because the table of Legendre functions ends at 20. Exact real arithmetic.")
c("C63","proved",[F+"C63_product_error",F+"C63_executions_exist"],"end-to-end error bound of the product, for all schedules; simulation of the numeric executions by the symbolic ones of C06 and the expansion theorems C57-C62; exact real arithmetic")
c("C64","proved",[B+"C64_dense_entry",B+"C64_dense_other_rows",B+"C64_partition",B+"C64_dense_product",B+"C64_methods_agree"],"Exact real arithmetic; mapped quadratures (points, normals, shape values, JxW) are data.")
c("C65","proved",[F+"C65_fixed_matrix",F+"C65_deterministic",F+"C65_linear",F+"C65_constants",F+"C65_operator",F+"C65_entries"],"Exact real arithmetic (with rounding the schedule matters in the last digits); the two kernels are executed separately in the model.")
c("C66","proved",[B+"C66_unique_normals",B+"C66_order",B+"C66_alpha",B+"C66_trace",B+"C66_tensor",B+"C66_symmetric",B+"C66_smooth",B+"C66_set",B+"C66_convex_edge",B+"C66_reentrant_edge",B+"C66_reentrant_refuted",B+"C66_angular_order",B+"C66_free_b",B+"C66_node_normals",B+"C66_smooth_node",B+"C66_convex_edge_node",B+"C66_doubles_share",B+"C66_convex_corner",B+"C66_concave_corner",B+"C66_concave_refuted",B+"C66_cube_corner"],"Exact real arithmetic, dimension 3. Equality with the integrals over the directions of the domain for straight edges and for convex and concave corners with any number of flat faces; saddle corners are not considered.")

G="PiBem.Grad."
c("C67","proved",[G+"C67_projection",G+"C67_best",G+"C67_unique",G+"C67_partition",G+"C67_symmetric",G+"C67_regular",G+"C67_reproduces",G+"C67_linear",G+"C67_normals_plane",G+"C67_normals_refuted"],"Exact solution of the assembled system assumed; GMRES not modelled. distribute_local_to_global by its documented contract.")
c("C68","proved",[B+"C68_equation",B+"C68_kernels",B+"C68_partition",B+"C68_linear",B+"C68_smooth",B+"C68_distinct"],"Integrals of singular cells are data here (see C55, C56 for the integrator).")

c("C69","proved",[A+"C69_phi",A+"C69_grad",A+"C69_dphi",A+"C69_maxima",A+"C69_l2",A+"C69_phiLinf",A+"C69_phiLinf_le",A+"C69_refuted"],"integrate_difference by its documented contract.")
c("C70","proved",[K+"C70_free_b_tangent",K+"C70_free_b_planar",K+"C70_free_b_centre",K+"C70_free_b_interior",K+"C70_free_b_interior_bound",K+"C70_free_b_smooth_node",K+"C70_free_b_factor",K+"C70_elevation",K+"C70_free_b_factor_refuted"],"b is added to the equation without the factor 1/(4 pi) of the other terms: refuted at non-smooth curved nodes.")
c("C71","proved",[F+"C71_pattern_exact",F+"C71_pattern_rows",F+"C71_pattern_singular",F+"C71_executions_exist",F+"C71_final_pattern",F+"C71_final_writes"],"near field and preconditioner sparsity patterns; the positions are modelled, Trilinos storage and communication are not")
c("C72","proved",[B+"C72_ownership",B+"C72_full_pattern"],"the association of dofs with processes and the renumberings of deal.II are data (any function, any permutations)")
c("C73","proved",[F+"C73_map",F+"C73_every_history",F+"C73_lists",F+"C73_history_dependent"],"dof_to_elems is never cleared; all the other octree theorems are also stated for an arbitrary old content of the map")
c("C74","proved",[K+"C74_hypersingular",K+"C74_strongly_singular",K+"C74_exact_rules",K+"C74_unique"],"Finite part over the cell by change to polar coordinates per face (C43), Fubini and an estimate on rays uniform in the angle; the only difference from the value returned are the errors of the two quadrature rules, which appear explicitly. Assumes a three times differentiable map regular at the singular point and without a second preimage of it; real arithmetic.")
c("C75","proved",[B+"C75_constraints",B+"C75_exception",B+"C75_succeeds",B+"C75_after_solve",B+"C75_ghosts",B+"C75_mixed_refuted"],"The wish that the potential be continuous at every hanging node is refuted for hanging Neumann nodes on the edge of a Dirichlet cell; what is interpolated is the unknown.")
c("C76","proved",[B+"C76_constants",B+"C76_constants_fail",B+"C76_superposition",G+"C76_surface_gradients"],"Exact linear solve; existence of a unique solution is a hypothesis of the part on the returned solution.")
c("C77","proved",[B+"C77_integral_equation",B+"C77_conditions",B+"C77_two_results",B+"C77_partition",B+"stable_of_injective"],"Dimension 3, Dirichlet or mixed conditions. The linear solver is an arbitrary function; its residual enters the bounds. Stability of the dense system is a hypothesis of the comparison (implied by unique solvability).")
c("C78","proved",[G+"C78_locality",G+"C78_flat_face",G+"C78_edges",G+"C78_neumann_face",G+"C78_mixed_refuted"],"Any dimension, mass matrix systems solved exactly. The wish that the surface gradients be those of the potential is refuted on Neumann faces and for cells with Dirichlet and Neumann nodes.")
c("C79","proved",[B+"C79_constant_defect",B+"C79_unsolvable"],"Dimension 3, both methods, arbitrary linear solver. The wish that a pure Neumann solve satisfies the integral equation is refuted.")
c("C80","proved",[A+"C80_conformity",A+"C80_after_refinement",A+"C80_coarsening_refuted",A+"C80_mesh_ends",A+"C80_mesh_conforming",A+"C80_mesh_example"],"Straight doubled edges of the coarse mesh, exact arithmetic. Several doubled edges: refinement of a pass is a relation with the library contracts (each edge bisected at most once, all flagged ones, bound on bisections kept by smoothing); vertices of different edges farther apart than the tolerance. The wish that conformity is always restored is refuted for cycles with coarsening.")
c("C81","proved",[B+"C81_history",B+"C81_new_run",B+"C81_gap",B+"C81_spheroid_refuted",B+"C81_partition_refuted"],"State kept between cycles: function-level statics of the free coefficient product and of the singular quadratures, the unreset cell lists of the fast multipole data, the mapping object. The wish that a cycle is always equal to a new run on the same mesh is refuted for the spheroid option and for a new partition of the same number of dofs.")
c("C82","proved",[B+"C82_same_rows",B+"C82_exact_solutions",B+"C82_every_node",B+"C82_different_data",B+"C82_not_unique"],"Both methods. No hanging nodes. C82_exact_solutions covers the conditions for continuous gradients, corners included if the surface gradients are consistent (C92; otherwise see C83).")
c("C83","proved",[B+"C83_matrices",B+"C83_exact",B+"C83_same_result",B+"C83_corner_refuted"],"Both methods, no hanging nodes; exact linear solves. Corners with three Dirichlet nodes, the gradient option on and inconsistent surface gradients are an exception (bounded in C92), exhibited by C83_corner_refuted. Equality of normals and surface gradients, assumed here, is proved in C89.")
c("C84","proved",[A+"C84_direction_flat",A+"C84_direction_motion",A+"C84_direction_orientation",A+"C84_flag",A+"C84_sphere",A+"C84_no_surface",A+"C84_no_surface_refuted",A+"C84_undefined",A+"C84_loop"],"Exact real arithmetic; the CAD library (line intersection, differential forms) is an arbitrary function; execute_coarsening_and_refinement is arbitrary.")
c("C85","proved",[B+"C85_matrices",B+"C85_exact",B+"C85_same_result",B+"C85_same_run",B+"C85_double_nodes",B+"C85_units_refuted",B+"C85_hanging_units",B+"C85_hanging",B+"C85_hanging_dimension3",B+"C85_hanging_units_refuted",G+"C85_gradients",G+"C85_surface_gradients"],"Dense method, three dimensions; with hanging nodes the conditions are exactly those of C85_hanging_units; exact real arithmetic.")
c("C86","proved",[B+"Plane.C86_entry",B+"Plane.C86_partition",B+"Plane.C86_no_fma",B+"Plane.C86_integral_equation",B+"Plane.C86_units",B+"Plane.C86_units_equation",B+"Plane.C86_motion",B+"Plane.C86_degenerate_scale"],"Dimension 2, dense method; exact real arithmetic; the singular quadrature is an arbitrary list of points per cell and local dof; in the statements on similarities no quadrature point lies on its node.")
c("C87","proved",[B+"Plane.C87_normals",B+"Plane.C87_tensor",B+"Plane.C87_smooth",B+"Plane.C87_corner",B+"Plane.C87_tensor_refuted",B+"Plane.C87_b"],"Dimension 2; exact real arithmetic; normals of the cells at support points are data.")
c("C88","proved",[F+"C88_small_domain_exact",F+"C88_methods_coincide",F+"C88_one_level_exact",F+"C88_depends_on_unit"],"Exact real arithmetic. The tolerance of the neighbour test is absolute, so the unit of length decides whether expansions are used.")
c("C89","proved",[G+"C89_recovered",B+"C89_positions",B+"C89_nodes",B+"C89_gradient",B+"C89_setup",B+"C89_same_result",B+"C89_plane"],"Exact real arithmetic, exact solves. The mass matrix must be positive definite on the fields that satisfy the constraints (true when the quadrature determines the finite element functions).")
c("C90","proved",[B+"C90_ghosts",B+"C90_store",B+"C90_too_many_processes",B+"C90_cell_without_dofs"],"deal.II's association of dofs with subdomains (smallest subdomain wins) is a library contract.")
c("C91","proved",[B+"C91_exact_solutions",B+"C91_renumbered_exact",B+"C91_same_result",B+"C91_rows3",B+"C91_dimension3",B+"Plane.C91_matrices2",B+"Plane.C91_rows2",B+"Plane.C91_plane"],"Extends C82 and C83 to hanging nodes and to dimension 2. Hanging nodes that are double nodes at the same time (C75) are excluded.")
c("C92","proved",[B+"C92_corner_error",B+"C92_corner_exact",B+"C92_corner_numbering",B+"Consistent.ofTwo",B+"Consistent.ofGradient"],"Any dimension, any matrices with equal rows at double nodes, hanging nodes allowed. Exact linear solves.")
c("C93","proved",[A+"C93_nonnegative",A+"C93_minus_one",A+"C93_negative",A+"C93_negative_global"],"Machine arithmetic of the driver loop; the pattern of the input file accepts negative values, which are not what the user asked for.")
c("C94","proved",[B+"C94_conditions",B+"C94_jump",B+"C94_tolerance",B+"C94_small_data",B+"C94_small_data_zero"],"GMRES enters through its stopping test (left preconditioned residual, absolute tolerance) and its initial guess zero; dimension 2 and 3.")
c("C95","proved",[B+"C95_one_copy",B+"C95_replicated",B+"C95_new_runs",B+"C95_processes",B+"C95_marks_stable",B+"C95_marks_refuted"],"Error estimator, marking, mesh refinement and edge conformity of the library are arbitrary functions, equal on all processes; marking enters C95_marks_* through its documented effect (FixedNumber). Dimension 3, with Dirichlet nodes.")
c("C96","proved",[F+"C96_vmult",F+"C96_rhs",F+"C96_alpha",F+"C96_pending"],"Distributed Trilinos vectors by their documented contract (owned entries and pending additions); exact real arithmetic.")
c("C97","proved",[F+"C97_no_expansions",F+"C97_zero_nodes",F+"C97_levels",F+"C97_block_table",F+"C97_order"],"Patterns::Integer and the conversion to unsigned int by their contracts; memory exhaustion for the huge values is not modelled.")
c("C98","proved",[F+"C98_interleaving",F+"C98_conflicts",F+"C98_ends",F+"C98_fixed_matrix",F+"C98_race",F+"C98_example"],"Sequentially consistent memory; real arithmetic; the preconditioner and the allocator not included. Strict absence of data races is refuted by C98_race: the property states exactly which locations are raced on.")
c("C99","proved",[A+"C99_reached",A+"C99_unreachable",A+"C99_oscillates",A+"C99_threshold",A+"C99_example"],"Flat parallelogram cells; meshes on which deal.II refines the flagged cells only.")
c("C100","proved",[F+"C100_near_field",F+"C100_two_runs",F+"C100_exists",F+"C100_dense",F+"C100_product",F+"C100_constants",F+"C100_example"],"Standard model of floating point arithmetic, no overflow or underflow; values of kernels, shape functions and weights as computed; the expansions (far field) are not included.")
c("C101","proved",["PiBem.Mpi.C101_no_deadlock","PiBem.Mpi.C101_ends","PiBem.Mpi.C101_idle_process","PiBem.Mpi.C101_contract","PiBem.Mpi.C101_flag","PiBem.Mpi.C101_meshes","PiBem.Mpi.C101_idle_cycle","PiBem.Mpi.C101_cycle_example","PiBem.Mpi.C101_example"],"Library contracts: hidden assemblies of Trilinos objects, decisions of the Krylov solvers depend on replicated answers, constraints are distributed with one ghost exchange and one compress. Values of the vectors are not modelled.")
c("C102","proved",[B+"C102_same",B+"C102_higher",B+"C102_lower",B+"C102_unowned",B+"C102_data",B+"C102_example"],"Continuous elements. Library contract: numbering of distribute_dofs by first visit, component_wise; the renumberings by subdomains are permutations.")
c("C103","proved",["PiBem.App.Files.C103_complete_run","PiBem.App.Files.C103_can_end","PiBem.App.Files.C103_crash","PiBem.App.Files.C103_crash_mesh","PiBem.App.Files.C103_one_process","PiBem.App.Files.C103_stale","PiBem.App.Files.C103_torn","PiBem.App.Files.C103_example"],"Library contracts: opening a stream truncates; data reaches the file in pieces in order, at the position of the stream; the writers of deal.II flush at the end. Contents are functions of the mesh, equal on all processes (C95). Not modelled: disk errors, losses in the operating system.")
c("C104","proved",["PiBem.App.Setup.C104_ids","PiBem.App.Setup.C104_conditions","PiBem.App.Setup.C104_sets","PiBem.App.Setup.C104_example"],"Library contracts: split_string_list, istringstream >> unsigned, Patterns::List(Integer(0)). Signs in the numbers are not modelled.")
c("C105","proved",["PiBem.App.Setup.C105_files","PiBem.App.Setup.C105_tolerance","PiBem.App.Setup.C105_geometry","PiBem.App.Setup.C105_example"],"Library contracts: children inherit manifold ids; an id without manifold is flat. The geometry of the manifolds is not modelled.")
c("C106","proved",["PiBem.App.Params.C106_accepted","PiBem.App.Params.C106_values","PiBem.App.Params.C106_irrelevant","PiBem.App.Params.C106_idlist","PiBem.App.Params.C106_rules","PiBem.App.Params.C106_example"],"Library contracts: ParameterHandler, ParameterAcceptor::initialize for an existing file, SolverControl, ParsedFunction, QuadratureSelector. Not modelled: text layout of the file, interpretation of the expressions, value of a floating point text.")
c("C107","proved",[F+"C107_one_block",F+"C107_product",F+"C107_linear",F+"C107_node_evaluations",F+"C107_unresolved",F+"C107_example"],"Counts of the loops between two blocks, for one process owning all rows; the time of a single operation is not modelled. Hypotheses of the linear cost: finest boxes larger than the tolerance 0.001 of the neighbour tests and than the distance of a node from the points of its cells. C107_unresolved: without the first hypothesis the cost is quadratic in the number of leaves.")
c("C108","proved",[B+"C108_octree",B+"C108_lists",B+"C108_matrix",B+"C108_product",B+"C108_exact",B+"C108_same_result"],"Units in which the finest boxes are larger than the tolerance 0.001 of the neighbour tests; C88_depends_on_unit shows that the hypothesis is needed. Real arithmetic. C85 is the dense method.")
c("C109","proved",[F+"C109_no_expansions",F+"C109_few_blocks",F+"C109_product",F+"C109_displacement",F+"C109_depends_on_position"],"Quadrature points within the extent of the surface. Lists and few blocks in dimensions 2 and 3, the product in dimension 3.")
c("C110","proved",["PiBem.Mpi.C110_schedule","PiBem.Mpi.C110_same_status","PiBem.Mpi.C110_success","PiBem.Mpi.C110_failure","PiBem.Mpi.C110_idle","PiBem.Mpi.C110_zero_means","PiBem.Mpi.C110_all_or_none","PiBem.Mpi.C110_idle_cycle","PiBem.Mpi.C110_not_solved","PiBem.Mpi.C110_zero_iff","PiBem.Mpi.C110_zero_says","PiBem.Mpi.C110_more_processes"],"The messages of main and the treatment of a failed process by the launcher are not modelled.")
c("C111","proved",["PiBem.Bem.C111_matrices","PiBem.Bem.C111_product","PiBem.Bem.C111_alpha","PiBem.Bem.C111_boundary_data","PiBem.Bem.C111_exact","PiBem.Bem.C111_same_result","PiBem.Bem.C111_hanging_related","PiBem.Bem.C111_hanging","PiBem.Grad.C111_normals","PiBem.Grad.C111_gradients"],"Exact real arithmetic; the orientation enters only through the normals given by deal.II (a reversed cell also numbers its nodes otherwise: that part is C83).")
c("C112","proved",["PiBem.Bem.C112_signs","PiBem.Bem.C112_alpha","PiBem.Bem.C112_maximum","PiBem.Bem.C112_unique","PiBem.Bem.C112_comparison","PiBem.Bem.C112_one_dirichlet","PiBem.Bem.C112_flux","PiBem.Bem.C112_neumann","PiBem.Bem.Plane.C112_plane_signs","PiBem.Bem.Plane.C112_plane_maximum","PiBem.Bem.Plane.C112_plane_unique","PiBem.Bem.C112_hanging"],"Exact real arithmetic; dense method, dimensions 2 and 3. The single layer kernel of the plane has no sign: there the statements on it do not hold. The fast multipole method approximates the same matrices (C77), so the signs hold for it only up to the errors of the expansions.")
c("C113","proved",["PiBem.Bem.C113_matrices","PiBem.Bem.C113_alpha","PiBem.Bem.C113_exact","PiBem.Bem.C113_symmetric","PiBem.Bem.C113_odd","PiBem.Bem.C113_hanging_exact","PiBem.Bem.C113_hanging","PiBem.Bem.C113_dimension3","PiBem.Bem.Plane.C113_plane_matrices","PiBem.Bem.Plane.C113_plane"],"Exact real arithmetic; dense method. `C113_symmetric` is for conforming meshes in dimension 3; `C113_hanging` for meshes with hanging nodes, in dimensions 3 (`C113_dimension3`) and 2 (`C113_plane`). The octree of the fast multipole method is in general not mapped to itself, so there the symmetry holds only up to the errors of the expansions.")
c("C114","proved",["PiBem.Bem.C114_every_data","PiBem.Bem.C114_one_datum","PiBem.Bem.C114_otherwise","PiBem.Bem.C114_convex","PiBem.Bem.C114_hanging","PiBem.Bem.C114_convex_hanging","PiBem.Bem.C114_returns","PiBem.Bem.C114_all_data"],"Exact real arithmetic; problems with a Dirichlet node (pure Neumann problems: C79). The matrices are any two matrices, so the statements hold for the dense method in dimensions 2 and 3 and for the fast multipole method. Conditions at Dirichlet nodes with parallel normals, which are not finite (C32), are excluded by hypothesis.")
c("C115","proved",["PiBem.Bem.C115_balance","PiBem.Bem.C115_unique","PiBem.Bem.C115_compatible","PiBem.Bem.C115_tolerance","PiBem.Bem.C115_solve","PiBem.Bem.C115_one_dirichlet","PiBem.Bem.C115_neumann","PiBem.Bem.C115_neumann_iff","PiBem.Bem.C115_conservation","PiBem.Bem.C115_method","PiBem.Bem.C115_stops","PiBem.Bem.C115_stops_one_dirichlet","PiBem.Bem.C115_hanging","PiBem.Bem.C115_hanging_compatible","PiBem.Bem.C115_hanging_unique","PiBem.Bem.C115_hanging_solve","PiBem.Bem.C115_hanging_one_dirichlet","PiBem.Bem.C115_convex_hanging","PiBem.Bem.Plane.C115_plane_balance","PiBem.Bem.Plane.C115_plane_compatible","PiBem.Bem.Plane.C115_plane_solve","PiBem.Bem.Plane.C115_plane_small"],"Exact real arithmetic; dense method, dimension 3; fast multipole method: C115_method, up to the errors of its products; dimension 2: the C115_plane theorems, conforming meshes. Hanging nodes: the C115_hanging theorems, for any two matrices with the signs of convex surfaces. C115_neumann: conforming meshes, pure Neumann solves without residual and without double nodes.")
json.dump({"claims":C},open('/verif/MANIFEST.json','w'),indent=1)
