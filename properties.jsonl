{"id": "C01", "title": "Octree leaves partition nodes and quadrature points", "statement": "After the FMA octree has been generated, every collocation node and every quadrature point of the mesh is stored in exactly one leaf (childless) block, and a block with children stores exactly the union of what its children store, each item in exactly one child.", "quantifier": "all meshes (node and quadrature point positions, numbers of cells, dofs, quadrature points), all octree depths >= 1 and node capacities, dimension 2 and 3", "why_tests_cant": "A unit test checks a few clouds of points; points on splitting planes, coincident points, empty octants and deep chains are a continuum of inputs.", "anchors": ["source/bem_fma.cc:BEMFMA::generate_octree_blocking", "source/octree_block.cc:AddNode,AddQuadPoint,AddChild,CopyContent"]}
{"id": "C02", "title": "Octree links, levels and id ranges are consistent", "statement": "Block ids are dense; ids of level l are exactly the interval [startLevel[l], endLevel[l]]; every non-root block appears exactly once in the children list of its parent, the parent has a smaller id and is one level up; no block has more than 2^dim children, so the fixed children array is never overrun.", "quantifier": "all octree inputs, depths and capacities", "why_tests_cant": "The id ranges are used as level tests by the matrix-vector product; a single off-by-one only shows for particular fill patterns.", "anchors": ["source/bem_fma.cc:BEMFMA::generate_octree_blocking", "source/octree_block.cc:AddChild", "include/octree_block.h:childrenId"]}
{"id": "C03", "title": "Leaf capacity rule", "statement": "Every leaf above the last level holds at most max_num_nodes_per_block (duplicate-weighted, rounded) nodes, every block that was subdivided below the root holds more than that, and no block is deeper than num_octree_levels.", "quantifier": "all octree inputs, depths and capacities", "why_tests_cant": "Stopping rule interacts with double-node weights and rounding; only finitely many combinations can be tested.", "anchors": ["source/bem_fma.cc:BEMFMA::generate_octree_blocking"]}
{"id": "C04", "title": "Quadrature-point-to-block map is level accurate", "statement": "For every quadrature point the map quad_point_to_block has one entry per level 0..num_octree_levels, and entry l is the block of level l containing the point, or the (shallower) leaf containing it.", "quantifier": "all octree inputs, every quadrature point, every level", "why_tests_cant": "Entries are pushed at different places (root, split, leaf padding); an error only shows for particular leaf depths.", "anchors": ["source/bem_fma.cc:BEMFMA::generate_octree_blocking", "include/bem_fma.h:quad_point_to_block"]}
{"id": "C05", "title": "Content of the dof-to-block map", "statement": "dof_to_block[i] contains only blocks containing dof i, ordered by level; a block is repeated once per (non empty) child, once more if it is the root, and num_octree_levels - level times if it is a leaf. The documented shape, one block per level, therefore holds only when every ancestor has one child, and fails on a concrete mesh.", "quantifier": "all octree inputs, every dof", "why_tests_cant": "Nothing in the test suite reads the map; its wrong content depends on how many sibling octants are non-empty.", "anchors": ["source/bem_fma.cc:BEMFMA::generate_octree_blocking", "include/bem_fma.h:dof_to_block"]}
{"id": "C06", "title": "Every node/quadrature point interaction is taken exactly once by the FMA", "statement": "If expansions were exact, the FMA matrix-vector product would equal the direct one: for every node the sum of near-field direct terms, direct terms with bigger leaves, multipole evaluations of smaller blocks and local expansions inherited from all ancestors contains every (cell, quadrature point) contribution exactly once, with cells containing the node (or a double of it) replaced once by their singular quadrature.", "quantifier": "all octree inputs, all kernels (any additive commutative monoid of contributions), every node", "why_tests_cant": "The repository has this check (integralCheck) commented out because it only samples meshes; coverage must hold for every distribution of points.", "anchors": ["source/bem_fma.cc:BEMFMA::generate_octree_blocking", "source/bem_fma.cc:direct_integrals", "source/bem_fma.cc:generate_multipole_expansions", "source/bem_fma.cc:multipole_matr_vect_products"]}
{"id": "C07", "title": "Multipole-to-local translations are only applied between well separated blocks", "statement": "Whenever the matrix-vector product converts the multipole expansion of a block into the local expansion of another one of the same level, the two boxes are separated along some axis by at least one box side.", "quantifier": "all octree inputs whose points are inside the root box, all levels, all pairs used", "why_tests_cant": "Accuracy of the FMM hinges on it; violating configurations would be rare geometric coincidences.", "anchors": ["source/bem_fma.cc:BEMFMA::generate_octree_blocking", "source/bem_fma.cc:multipole_matr_vect_products"]}
{"id": "C08", "title": "Multipole expansions are only evaluated outside their convergence ball", "statement": "Whenever the product evaluates the multipole expansion of a smaller block directly at a node, the node is at distance at least 3/2 sides from the block centre while every source in that block is within sqrt(3)/2 sides.", "quantifier": "all octree inputs whose points are inside the root box, every node and smaller block used", "why_tests_cant": "Same as C07, across levels.", "anchors": ["source/bem_fma.cc:BEMFMA::generate_octree_blocking", "source/bem_fma.cc:multipole_matr_vect_products"]}
{"id": "C09", "title": "Singular cells are always integrated by the singular quadrature", "statement": "For every node, a cell having the node or one of its double nodes among its dofs is never reached through an expansion or through a plain quadrature of a bigger block: all its quadrature points are in the leaf's innermost interaction list.", "quantifier": "all octree inputs, all nodes and cells", "why_tests_cant": "The extra insertion into interaction lists happens per sublevel; a missing one only shows when a cell straddles blocks of particular levels.", "anchors": ["source/bem_fma.cc:BEMFMA::generate_octree_blocking", "source/bem_fma.cc:direct_integrals"]}
{"id": "C10", "title": "Upward pass: the expansion of every block represents all sources in it", "statement": "After the ascending phase, the multipole expansion of every block equals the sum of the source contributions of all quadrature points contained in the block.", "quantifier": "all octree inputs, all densities, every block, every order in which blocks of a level are processed", "why_tests_cant": "Parallel schedule and tree shape are unbounded.", "anchors": ["source/bem_fma.cc:generate_multipole_expansions"]}
{"id": "C11", "title": "Size of the octree block table", "statement": "Generating the octree writes outside the table of num_octree_levels*n_cells*n_quadrature_points blocks exactly when the number of blocks exceeds that size; the number of blocks is at most 1 + 2^d + 2^d (levels-1) W/(max_nodes_per_block + 1/2), W the number of distinct nodes, so the construction is safe whenever this bound fits; a concrete mesh does overflow.", "quantifier": "all octree inputs", "why_tests_cant": "Out of bounds writes may go unnoticed in a test; the bound depends on all sizes.", "anchors": ["source/bem_fma.cc:BEMFMA::generate_octree_blocking"]}
{"id": "C12", "title": "Interaction lists split the refined parent list", "statement": "For every block and sublevel, the interaction list and the non-interaction list are disjoint and together are exactly the blocks obtained from the previous list (the parent's list, or the previous sublevel's list) by replacing every subdivided block with its children.", "quantifier": "all octree inputs, all blocks of level >= 2 and all sublevels", "why_tests_cant": "Set arithmetic across levels; finite tests cover few tree shapes.", "anchors": ["source/bem_fma.cc:BEMFMA::generate_octree_blocking"]}
{"id": "C13", "title": "Adjacency test is complete for tree boxes", "statement": "Two different boxes of the octree that are both leaves or have equal level and that touch (share at least a boundary point) always pass the neighbour test, in 2D and 3D; and boxes passing it are never farther apart than the tolerance 0.001 along any axis.", "quantifier": "all octree inputs, all pairs of blocks; second half: all pairs of boxes with side >= 0", "why_tests_cant": "Corner, edge and face contact for different sizes are infinitely many cases.", "anchors": ["source/bem_fma.cc:BEMFMA::generate_octree_blocking"]}
{"id": "C14", "title": "Distributed FMA product does not depend on the partition", "statement": "For any assignment of nodes to MPI processes, the value each process computes for a node it owns equals the value computed by a serial run.", "quantifier": "all octree inputs, all ownership assignments, all nodes", "why_tests_cant": "Number of partitions is exponential; blocks shared by processes are processed conditionally (on_process).", "anchors": ["source/bem_fma.cc:direct_integrals", "source/bem_fma.cc:multipole_matr_vect_products"]}
{"id": "C15", "title": "Worker/copier result buffers are attributed to the right rows", "statement": "In the direct assembly the flat buffer of local rows produced by a worker is copied to the matrix row of the node it was computed for, for nodes owned and not owned, and the assembled matrix is independent of the order in which copiers run.", "quantifier": "all numbers of nodes, cells per node, ownership patterns and schedules", "why_tests_cant": "Offsets arithmetic with empty ranges (not owned nodes) and arbitrary interleavings.", "anchors": ["source/bem_fma.cc:direct_integrals (f_worker_*, f_copier_direct)"]}
{"id": "C16", "title": "Multipole coefficients storage is a faithful triangular array", "statement": "For every truncation order p, the coefficients (n,m), 0<=m<=n<=p are stored at distinct positions that fill exactly the allocated array: a value set at (n,m) is read back at (n,m) and no other coefficient changes.", "quantifier": "all truncation orders, all coefficient positions", "why_tests_cant": "Unbounded p; overlap would only corrupt particular orders.", "anchors": ["include/multipole_expansion.h:GetCoeff,SetCoeff,AddToCoeff", "source/multipole_expansion.cc", "include/local_expansion.h"]}
{"id": "C17", "title": "Local expansion translation table indexing", "statement": "For every order p (below the 32 bit overflow threshold) the index used for coefficient (n,m,nn,mm), with mm possibly negative and passed as unsigned, is inside the allocated array and distinct coefficients use distinct positions, so set/get/add behave as on a 4-index array.", "quantifier": "all orders p, all index quadruples, arithmetic modulo 2^32", "why_tests_cant": "Uses wrap-around of unsigned arithmetic; must hold for all p.", "anchors": ["source/local_expansion_coeff.cc:getIndex,get,set,add"]}
{"id": "C18", "title": "Content of a copy of a local expansion coefficient table", "statement": "Copy-constructing a LocalExpansionCoeff of order p copies only the first N bytes of the N doubles of the table: entries lying in these bytes are equal to the original, the others are indeterminate, so for every order and original a copy can differ from the original (the natural expectation that a copy equals its original is refuted).", "quantifier": "all orders and contents", "why_tests_cant": "A test comparing order 0 or the first entries passes.", "anchors": ["source/local_expansion_coeff.cc:LocalExpansionCoeff(const LocalExpansionCoeff&)"]}
{"id": "C19", "title": "Copies of expansions are independent and equal", "statement": "Assigning or copy-constructing a multipole (local) expansion from an initialised one yields an equal expansion and later changes of one do not affect the other, in every history without self-assignment and without copies of default-constructed expansions; multipole expansions leak no memory in such histories, assignment of local expansions does. Self-assignment and copying from a default-constructed expansion are NOT safe: the first loses all coefficients, the second reads through a null pointer.", "quantifier": "all heaps, all expansions, all later histories of operations", "why_tests_cant": "Memory reuse bugs are timing and allocator dependent.", "anchors": ["source/multipole_expansion.cc:operator=", "source/local_expansion.cc:operator="]}
{"id": "C20", "title": "Supported truncation orders never read outside the coefficient tables", "statement": "For truncation order p <= 10 every lookup of the precomputed tables made by multipole and local expansions operations is inside the tables; for p > 10 it is not (the program has no guard): for every p > 10 the result of the conversion to a local expansion depends on an entry outside, for p > 20 that of an evaluation. The result of no operation depends on an entry that is not looked up.", "quantifier": "all p, all loops of Add/Evaluate/translation", "why_tests_cant": "Depends on the extreme indices of nested loops.", "anchors": ["source/multipole_expansion.cc", "source/local_expansion.cc", "source/local_expansion_coeff.cc", "source/ass_leg_function.cc"]}
{"id": "C21", "title": "Skipping zero expansions never changes a result", "statement": "The is_zero flag of an expansion is true only if all its coefficients are zero, after any sequence of the operations the solver uses, so the shortcuts taken for flagged expansions return the same values as the full computation. The unused method LocalExpansion::Add(real, imag) breaks this and for every order >= 1 writes outside the coefficient array.", "quantifier": "all histories of expansion operations", "why_tests_cant": "History dependent flag.", "anchors": ["source/multipole_expansion.cc:Add", "source/local_expansion.cc:Add"]}
{"id": "C22", "title": "Constrained operator characterises the constrained solution", "statement": "A vector x satisfies ConstrainedOperator*x = distribute_rhs(b) iff it satisfies every homogeneous/inhomogeneous constraint and every unconstrained equation of the underlying matrix with right hand side b.", "quantifier": "all matrices, constraint sets, right hand sides and vectors, all sizes", "why_tests_cant": "Needs all linear systems.", "anchors": ["include/constrained_matrix.h:vmult,distribute_rhs"]}
{"id": "C23", "title": "Constrained operator is linear and partition independent", "statement": "vmult is a linear map whenever the wrapped matrix is, and gathering the owned entries computed by the MPI processes gives the serial result for every partition.", "quantifier": "all vectors, scalars, partitions", "why_tests_cant": "Partitions and sizes unbounded.", "anchors": ["include/constrained_matrix.h:vmult"]}
{"id": "C24", "title": "When the transposed constrained operator is the transpose", "statement": "The transposed constraint product of the alternative constrained operator, on a zeroed output, is the transpose of the constraint product if and only if no constraint refers to an index with a larger number than the constrained one (it overwrites already accumulated contributions): it is not the transpose for all constraints. The operator's vmult moreover adds to the old content of its output. When constraints are closed and refer only to smaller indices, a vector solves the constrained system (matrix applied between the two constraint products, right hand side distributed) iff the finalised vector satisfies the condensed equations, and the finalised vector satisfies every constraint.", "quantifier": "all constraint sets, linear matrices and vectors", "why_tests_cant": "Depends on index order.", "anchors": ["include/true_constrained_matrix.h"]}
{"id": "C25", "title": "System operator and right hand side encode the boundary integral equation", "statement": "With vmult and compute_rhs of the solver (both solution methods), a vector of unknowns solves the linear system iff the potential/normal derivative obtained by merging known data and unknowns satisfies alpha*phi + N*phi = D*dphi_dn row by row (mixed or Dirichlet boundary conditions). With constraints and an exact inner solve, after solve_system the equation holds at every unconstrained node and every constraint holds.", "quantifier": "all matrices N, D, alpha, all Dirichlet/Neumann classifications, all data", "why_tests_cant": "All data and all splits of nodes.", "anchors": ["source/bem_problem.cc:vmult,compute_rhs,solve_system"]}
{"id": "C26", "title": "Solving keeps prescribed data and stores the unknowns", "statement": "After solve_system the potential on Dirichlet nodes and the normal derivative on Neumann nodes are the prescribed ones and the other entries are the solution entries.", "quantifier": "all classifications and data", "why_tests_cant": "All subsets of nodes.", "anchors": ["source/bem_problem.cc:solve_system"]}
{"id": "C27", "title": "alpha makes constants a null vector of the double layer operator", "statement": "compute_alpha returns alpha with alpha_i + sum_j N_ij = 0, so a constant potential with zero normal derivative satisfies the discrete equation exactly.", "quantifier": "all matrices/meshes and constants", "why_tests_cant": "All meshes.", "anchors": ["source/bem_problem.cc:compute_alpha"]}
{"id": "C28", "title": "Action of the iterated operator without Dirichlet boundary", "statement": "For pure Neumann problems vmult used by GMRES is A x - ||A x||_2 (1,...,1): it is additive or odd only if A = 0, so the expectation that it is linear is refuted; it is positively homogeneous, vanishes exactly on the kernel of A, and (two nodes or more) the shift never yields a zero-mean vector unless A x = 0.", "quantifier": "all vectors", "why_tests_cant": "A test on one vector cannot refute/establish linearity.", "anchors": ["source/bem_problem.cc:vmult (vector_shift)"]}
{"id": "C29", "title": "Dirichlet/Neumann node classification is complementary and partition independent", "statement": "Each node is flagged exactly one of Dirichlet/Neumann, and it is Dirichlet iff a Dirichlet cell owned by the process owning the node contains it. If no node is shared by Dirichlet and non-Dirichlet cells this does not depend on the MPI partition; otherwise it may (refuted with a 3 node mesh). The flag telling whether there is any Dirichlet boundary never depends on the partition.", "quantifier": "all meshes, id lists, partitions", "why_tests_cant": "Partitions unbounded.", "anchors": ["source/bem_problem.cc:compute_dirichlet_and_neumann_dofs_vectors"]}
{"id": "C30", "title": "Double node sets", "statement": "The double-node set of a node contains the node, the relation is symmetric, and it is an equivalence if coincident nodes are separated from the others by more than the tolerance; without this it may fail to be transitive.", "quantifier": "all node positions", "why_tests_cant": "Continuum of positions.", "anchors": ["source/bem_problem.cc:compute_double_nodes_set"]}
{"id": "C31", "title": "Constraints on double nodes keep the potential single valued", "statement": "For every group of coincident nodes: if the group has a Dirichlet node, its Neumann members are constrained to the datum of the first Dirichlet node; in pure Neumann groups all members but the first are constrained to equal the first, which is free; Dirichlet members are free unless continuous gradients are requested, in which case each gets the computed normal gradient (the first one that of the pair with the last Dirichlet member). No constraint refers to a constrained node. After an exact solve the potential is single valued on every group.", "quantifier": "all groups, classifications and orders", "why_tests_cant": "Iteration order over sets and groups of any size.", "anchors": ["source/bem_problem.cc:compute_constraints"]}
{"id": "C32", "title": "Flat edges between Dirichlet boundaries", "statement": "The branch of the double Dirichlet constraint meant for flat edges is never executed, for any pair of normals (the quantity tested is divided by itself); consequently on a flat edge, when continuous gradients are requested, the imposed normal derivatives are not finite.", "quantifier": "all pairs of normals", "why_tests_cant": "Continuum of normals.", "anchors": ["source/bem_problem.cc:compute_constraints"]}
{"id": "C33", "title": "Shape of the band preconditioner", "statement": "For every matrix size, row and bandwidth (no 32 bit overflow) the band loop visits only valid columns, each once, namely those in [i-band/2, i+band/2); it contains the diagonal iff band >= 2; it is structurally symmetric only if band < 2 or the size is at most band/2 (asymmetric for the bandwidth 100 of the program and more than 50 unknowns).", "quantifier": "all sizes and bandwidths", "why_tests_cant": "All sizes, unsigned arithmetic.", "anchors": ["source/bem_problem.cc:assemble_preconditioner"]}
{"id": "C34", "title": "Constrained rows of the FMA preconditioner versus the operator", "statement": "In the row of a constrained dof the FMA preconditioner has the same diagonal as the constrained operator and exactly the opposite off-diagonal entries, for every constraint; so the expectation that the rows coincide is refuted already for two coincident Neumann nodes. In the row of an unconstrained dof it has the entries of the operator (near field: -D in Dirichlet columns, N plus alpha on the diagonal in the others) on the sparsity pattern.", "quantifier": "all constraint sets", "why_tests_cant": "Preconditioner errors do not change converged results so tests pass.", "anchors": ["source/bem_fma.cc:FMA_preconditioner", "include/constrained_matrix.h"]}
{"id": "C35", "title": "Reordering vectors are inverse permutations", "statement": "original_to_sub_wise and sub_wise_to_original are inverse of each other for every subdomain numbering, for scalars and vectors, and the positions used to read component k of a vector quantity at node i are in range and distinct for distinct (i,k).", "quantifier": "all partitions and sizes", "why_tests_cant": "All permutations.", "anchors": ["source/bem_problem.cc:compute_reordering_vectors"]}
{"id": "C36", "title": "Boundary data do not depend on the cell visiting order", "statement": "If all cells sharing a node agree on its boundary condition type and datum, then after the boundary data are prepared, for every order of the cells, a Dirichlet node holds the potential in phi and in the right hand side and a Neumann node holds the normal component of the wind in dphi and in the right hand side, so the vectors used by the solver agree with the right hand side. The expectation that this also holds for nodes shared by Dirichlet and Neumann cells is refuted: the last visited cell wins, and a node classified Dirichlet may receive the Neumann datum.", "quantifier": "all meshes and orders of cells", "why_tests_cant": "Orders and meshes unbounded.", "anchors": ["source/boundary_conditions.cc:prepare_bem_vectors"]}
{"id": "C37", "title": "Pure Neumann shift", "statement": "With at least one Dirichlet node the solved potential is output unchanged. For pure Neumann problems the output potential equals the exact potential at the lowest node owned by process 0, differs from the computed one by one constant on all processes, and solves the boundary integral equation iff the computed one does; if process 0 owns no node the first element of an empty set is accessed.", "quantifier": "all solutions and partitions", "why_tests_cant": "Partitions/solutions unbounded.", "anchors": ["source/boundary_conditions.cc:solve_problem"]}
{"id": "C38", "title": "Spheroid mapping scales each axis", "statement": "The first time the FE mapping is created with the spheroid option, a mesh point (x,y) becomes (a x, b y) in 2D. In 3D the expected (a x, b y, c z) is refuted: the point becomes (a x, b c y, z). Every later reinitialisation (after a refinement) restores the unscaled points, and with a mapping other than FE the option accesses an empty vector.", "quantifier": "all axes and meshes", "why_tests_cant": "All axes values.", "anchors": ["source/bem_problem.cc:reinit"]}
{"id": "C39", "title": "Singular quadratures follow the current finite element and order", "statement": "For every history of calls the singular quadratures returned are those of the first call: they are the requested ones iff order and support point are the same as in the first call. The expectation that they follow the current order and element is refuted.", "quantifier": "all histories of calls", "why_tests_cant": "History dependent.", "anchors": ["source/bem_problem.cc:get_singular_quadrature"]}
{"id": "C40", "title": "Driver cycle structure", "statement": "With global refinement the driver performs exactly one refinement (n_cycles levels) and one solve; with local refinement n_cycles+1 solves, each but the first immediately preceded by an adaptive refinement and an update of the triangulation. In all cases errors and results are output exactly once, after the last solve.", "quantifier": "all n_cycles, all options", "why_tests_cant": "Loop counts for all values.", "anchors": ["source/driver.cc:run"]}
{"id": "C41", "title": "CAD projection cache: value returned for every history of queries", "statement": "For every history of queries pull_back returns the projection of the first point queried with the same hash of the key; two points have the same key string if and only if their three coordinates print alike with six decimals, hence they then differ by at most 1e-6 per coordinate. The cache is therefore not transparent: there are histories and points for which the value returned is not the projection of the point.", "quantifier": "all histories of queries, all projectors, all hash functions", "why_tests_cant": "Histories unbounded, collisions are rare.", "anchors": ["source/cached_nurbs_patch_manifold.cc:pull_back,point_to_string"]}
{"id": "C42", "title": "Laplace kernels are consistent with each other", "statement": "For every R != 0: the single layer kernels are the Green functions -log|R|/(2 pi) and 1/(4 pi |R|), which are harmonic; double_layer and the three argument kernels return their gradient; the four argument kernels return a symmetric tensor with zero trace equal to the derivative of the returned vector, which is the gradient in 2D and, unlike the other overload, the opposite of the gradient in 3D. The expectation that hypersingular() is the same tensor holds in 2D and is refuted in 3D: its diagonal entry i is right iff the components of R after the i-th vanish.", "quantifier": "all non zero vectors R", "why_tests_cant": "Continuum of inputs.", "anchors": ["include/laplace_kernel.h"]}
{"id": "C43", "title": "Polar subdivision of the reference cell is valid", "statement": "For every singular point of the reference square: the edges skipped are exactly those containing it; on each other edge the angles are increasing and span less than pi, for every angle the radius is positive, the outer point lies on the edge, all inner points lie in the cell, and the extreme angles give the end points of the edge; every point of the cell other than the singular one is reached, and by a single edge, angle and radius in the interior of the sectors.", "quantifier": "all singular points, all angles", "why_tests_cant": "Continuum.", "anchors": ["source/singular_kernel_integral.cc"]}
{"id": "C44", "title": "Tabulated associated Legendre functions", "statement": "For every degree n<=20, order m<=n and argument in [-1,1] GetAssLegFunSph returns sqrt((n-m)!/(n+m)!) times the associated Legendre function with Condon-Shortley sign (formula of Rodrigues), in exact arithmetic; for every argument in (-1,1) GetAssLegFunSphDeriv returns its derivative; at the end points the derivative is not a number exactly for m=1. Calls with n>20 or m>n are undefined. The sequences filled by AssLegFunSph and AssLegFunSphDeriv hold the degrees m..p in order.", "quantifier": "all 231 pairs of degree and order (462 functions), all real arguments", "why_tests_cant": "Continuum of x; a sampled comparison hides wrong digits.", "anchors": ["source/ass_leg_function.cc"]}
{"id": "C45", "title": "Mesh refinement loops terminate within their bounds", "statement": "The aspect ratio loop executes at most 10 cycles, the curvature loop at most the configured number; every cycle but the last flags a cell, and if fewer cycles than the maximum are executed the last one flags none. If the aspect ratio loop stops early, all cells of the mesh of its last cycle have the prescribed aspect ratio and the result is that mesh after a refinement with no flags. Cells smaller than ten times the tolerance are never flagged for curvature.", "quantifier": "all meshes", "why_tests_cant": "All meshes and behaviours of the refinement.", "anchors": ["source/computational_domain.cc:refine_and_resize"]}
{"id": "C46", "title": "CAD surface accessed by the curvature refinement", "statement": "With n CAD surfaces, a cell with material id 1..n uses the corresponding surface, with a larger id none; with id 0 (the deal.II default) or an id from 2^31 the vector of surfaces is read out of bounds, so it is not true that the access is always to a loaded surface.", "quantifier": "all material ids and numbers of surfaces", "why_tests_cant": "All ids.", "anchors": ["source/computational_domain.cc:refine_and_resize"]}
{"id": "C47", "title": "Manifold ids of CAD surfaces and curves", "statement": "The manifold id 11+j is attached to curve j and 1+i to surface i, except that curves replace surfaces: all surfaces keep their id if and only if there are at most 10 of them or there are no curves. The destructor resets exactly these ids and 0, leaving the others. The files read are those numbered from 1 up to the first missing one.", "quantifier": "all numbers of CAD files", "why_tests_cant": "All counts.", "anchors": ["source/computational_domain.cc:refine_and_resize,~ComputationalDomain"]}
{"id": "C48", "title": "Contents and copies of octree blocks", "statement": "For every block of a program the copy constructor gives a block that no reading member function tells apart from the original, and every later sequence of calls has the same outcome on both. CopyContent appends the nodes: the target equals the source if and only if the target had no nodes, and copying a block with nodes into itself does not return. A ninth AddChild is undefined behaviour; up to eight children are read back in order. After every history of calls a block holds the nodes and the quadrature points added since the last deletion, in order, and at every sublevel of each of the three neighbour lists exactly the blocks inserted there and not dropped by a later smaller size; reading or adding at a sublevel that does not exist throws.", "quantifier": "all blocks obtained by any sequence of member functions", "why_tests_cant": "All block contents.", "anchors": ["source/octree_block.cc:CopyContent"]}
{"id": "C49", "title": "Element multipole moments are computed once per (block, cell)", "statement": "The stored element expansions of each leaf are independent of scheduling and of reuse of worker buffers, and equal the sum over the quadrature points of the cell in the leaf.", "quantifier": "all schedules and buffer reuse patterns", "why_tests_cant": "Schedules unbounded.", "anchors": ["source/bem_fma.cc:multipole_integrals"]}
{"id": "C50", "title": "Double vertex cache and edge conformity loop", "statement": "The doubles of a vertex are exactly the vertices within the tolerance, in increasing order without repetition; the relation is reflexive and symmetric. When the conformity loop stops, no boundary edge has the midpoint of the two neighbours of a boundary vertex without double that belongs to two cells. The two-entry vector of neighbours is written out of bounds exactly when a cell after the first two at the vertex has a boundary edge there, which happens for some meshes.", "quantifier": "all meshes", "why_tests_cant": "All meshes.", "anchors": ["source/computational_domain.cc:compute_double_vertex_cache,make_edges_conformal"]}
{"id": "C51", "title": "Constants cached by compute_alpha", "statement": "The constant vector kept between calls by compute_alpha always has the right size and content, whatever the history of meshes; the product fails exactly when the partition of the dofs changed since the last call in which the number of dofs changed.", "quantifier": "all histories of mesh sizes and partitions", "why_tests_cant": "Depends on the history of all previous solves in the process.", "anchors": ["source/bem_problem.cc:compute_alpha"]}
{"id": "C52", "title": "Right hand side and old content of the output", "statement": "compute_rhs overwrites its output with the direct method; with the multipole method the opposite of the old content remains in the result, so both methods agree for all data iff the output vector is zero before the call.", "quantifier": "all data and previous contents of the output", "why_tests_cant": "All contents of the output vector.", "anchors": ["source/bem_problem.cc:compute_rhs", "source/bem_fma.cc:multipole_matr_vect_products"]}
{"id": "C53", "title": "Entries of the band preconditioner versus the system matrix", "statement": "Inside the band the row of an unconstrained node coincides with the row of the system operator in the columns of nodes with the same boundary type as the row; in columns of the other type it contains the entry of the wrong matrix (equal only if N_ij = -D_ij). Constrained rows are identity rows, entries outside the band are zero.", "quantifier": "all matrices, classifications, constraints, bandwidths", "why_tests_cant": "All mixtures of boundary types and sizes.", "anchors": ["source/bem_problem.cc:assemble_preconditioner,vmult"]}
{"id": "C54", "title": "Sharp Dirichlet edges recover the normal derivatives exactly", "statement": "At two coincident Dirichlet nodes with non-parallel unit normals, if the surface gradients are the tangential parts of a common gradient, the values imposed on the two normal derivatives are exactly its two normal components.", "quantifier": "all dimensions, normals and gradients", "why_tests_cant": "Continuum of normals and gradients.", "anchors": ["source/bem_problem.cc:compute_constraints"]}
{"id": "C55", "title": "Hypersingular integrals: the subtracted integrand is bounded", "statement": "On the cell containing the singular point, for every smooth regular cell shape, shape function and angle, the integrands evaluated at the radial quadrature points (kernel times area element times radius minus the terms F_2/rho^2 and F_1/rho computed from the derivatives at the singular point) stay bounded as the radius tends to zero, for both the hypersingular and the strongly singular integrals.", "quantifier": "all smooth cell maps regular at the singular point, all shape functions, all angles", "why_tests_cant": "A wrong coefficient makes the integral diverge only as the number of radial points grows; continuum of shapes and angles.", "anchors": ["source/singular_kernel_integral.cc:evaluate_VkNj_integrals,evaluate_WkNj_integrals"]}
{"id": "C56", "title": "Hypersingular integrals: the terms added back are the finite part", "statement": "For every angle, radius and coefficients, the terms added to I_1 and I_2 are the limit, as the radius of the excluded ball tends to zero, of the radial integral of F_2/rho^2 + F_1/rho over the part of the ray outside the ball minus its divergent terms.", "quantifier": "all smooth regular cell maps, angles, radii, coefficients", "why_tests_cant": "It is a statement about a limit.", "anchors": ["source/singular_kernel_integral.cc:evaluate_VkNj_integrals,evaluate_WkNj_integrals"]}
{"id": "C57", "title": "A multipole expansion contains exactly the sources added to it", "statement": "After any sequence of calls that add charges, normal-derivative sources, scaled expansions with the same centre and expansions with another centre, the coefficients up to the truncation order are exactly the moments, about the centre, of the union of the sources added (zero flag included).", "quantifier": "all orders up to 20, centres, sequences of calls, strengths, points", "why_tests_cant": "Continuum of sources, centres and points; a wrong factor may vanish at symmetric test points.", "anchors": ["source/multipole_expansion.cc:MultipoleExpansion::Add,AddNormDer"]}
{"id": "C58", "title": "AddNormDer adds a dipole along the normal", "statement": "For every point off the vertical line through the centre, AddNormDer(strength, point, normal) adds the moments of a dipole (the directional derivative of the charge moments) along the normalised normal.", "quantifier": "all orders up to 20, centres, points off the vertical axis, normals, strengths", "why_tests_cant": "Continuum of sources, centres and points; a wrong factor may vanish at symmetric test points.", "anchors": ["source/multipole_expansion.cc:AddNormDer"]}
{"id": "C59", "title": "Multipole translation loses nothing", "statement": "Adding an expansion about another centre gives exactly the moments of its sources about the new centre, without truncation error, if the two centres coincide or are farther than 1e-7.", "quantifier": "all orders up to 20, centres, sets of sources", "why_tests_cant": "Continuum of sources, centres and points; a wrong factor may vanish at symmetric test points.", "anchors": ["source/multipole_expansion.cc:Add"]}
{"id": "C60", "title": "Evaluating a multipole expansion: explicit error", "statement": "At every point farther from the centre than all the sources, the value returned differs from the potential of the sources (charges and dipoles) by at most the geometric bound of the truncation order.", "quantifier": "all orders up to 20, sets of charges and dipoles, points outside the sphere of the sources", "why_tests_cant": "Continuum of sources, centres and points; a wrong factor may vanish at symmetric test points.", "anchors": ["source/multipole_expansion.cc:Evaluate"]}
{"id": "C61", "title": "Local translation loses nothing", "statement": "Adding a local expansion about another centre adds, at every point, exactly the value of that expansion, if the two centres coincide or are farther than 1e-7.", "quantifier": "all orders up to 20, centres, coefficients, points", "why_tests_cant": "Continuum of sources, centres and points; a wrong factor may vanish at symmetric test points.", "anchors": ["source/local_expansion.cc:Add,Evaluate", "source/local_expansion_coeff.cc"]}
{"id": "C62", "title": "Multipole to local conversion: explicit error", "statement": "Adding a multipole expansion to a local one adds, at every point nearer to the local centre than the sources, the potential of the sources up to the geometric bound of the truncation order in |y-c_m|+|x-c_l| over the distance of the centres.", "quantifier": "all orders up to 10, sets of charges and dipoles, separated centres, points", "why_tests_cant": "Continuum of sources, centres and points; a wrong factor may vanish at symmetric test points.", "anchors": ["source/local_expansion.cc:Add", "source/local_expansion_coeff.cc"]}
{"id": "C63", "title": "The fast multipole product differs from the dense one by a bounded truncation error", "statement": "For every mesh, every vector, every partition of the rows among processes and every schedule of the threads, each owned entry of the vector produced by the fast multipole product (single or double layer) differs from the entry of the product computed cell by cell without expansions by at most (sum of |shape*JxW*value|/(4 pi) over the cells not containing the node) times (sqrt(3)/2)^(p+1)/((2-sqrt(3)) delta) for the single layer, (sqrt(3)/2)^p (p+1-p sqrt(3)/2)/((2-sqrt(3)) delta)^2 for the double layer, p the truncation order (at most 10) and delta the side of the finest blocks (at least 1.2e-7).", "quantifier": "all meshes with quadrature points in the root box, all octree parameters, all truncation orders p <= 10, all vectors, all ownerships, all schedules and buffer reuses of the five parallel phases; exact real arithmetic", "why_tests_cant": "A test compares the two products on a few meshes and vectors; the bound must hold for every geometry, vector, tree and schedule, and the worst case is not reached by random examples.", "anchors": ["source/bem_fma.cc: direct_integrals, multipole_integrals, generate_multipole_expansions, multipole_matr_vect_products", "source/multipole_expansion.cc", "source/local_expansion.cc", "source/laplace_kernel.cc / include/laplace_kernel.h: kernels"]}
{"id": "C64", "title": "Entries of the dense matrices and agreement of the two methods", "statement": "After the dense assembly, entry (i,k) of each matrix in an owned row is the sum over the cells and the local dofs with global index k of the kernel integral with collocation point i: by the regular quadrature if no local dof of the cell is a double of i, by the singular quadrature of the first such local dof otherwise; rows of other processes stay zero and the sum over the processes does not depend on the partition. The product with a vector differs from the fast multipole product at most by the truncation bound of C63 plus the difference of the singular quadratures (the two methods use different ones) on the cells containing the node.", "quantifier": "all meshes, quadratures, partitions, vectors, executions of the fast multipole product", "why_tests_cant": "A test compares the two methods on a few meshes; which quadrature is used for which pair and that no pair is skipped or counted twice must hold for every mesh with double nodes and every partition.", "anchors": ["source/bem_problem.cc: assemble_system, get_singular_quadrature", "source/bem_fma.cc: direct_integrals"]}
{"id": "C65", "title": "The fast multipole product is one fixed linear operator", "statement": "For every mesh there is one matrix such that every execution of the fast multipole product leaves exactly (in exact arithmetic) the product of that matrix with the input vector in the owned rows, for every vector, every schedule of the threads, every reuse of buffers and every partition of the rows. So the iterative solver sees the same linear operator in every iteration; alpha computed by the product with -1 cancels constants exactly, truncation included; the entries of the matrix differ from those of the dense one within the bound of C63.", "quantifier": "all meshes, orders, vectors, schedules, partitions; exact real arithmetic", "why_tests_cant": "Linearity and independence of the schedule quantify over all vectors, schedules and partitions; a race or an order-dependent update (e.g. expansions at different centres) shows only in particular interleavings.", "anchors": ["source/bem_fma.cc: generate_multipole_expansions, multipole_matr_vect_products", "source/bem_problem.cc: vmult, compute_rhs, compute_alpha"]}
{"id": "C66", "title": "Free coefficients of the hypersingular equation", "statement": "At every node: the normals kept are normals of its cells, pairwise at least 1e-5 apart, and cover all of them; the loop ordering them ends and returns a permutation, in counterclockwise angular order around the average normal when the angles of the projections differ and are not all on a line; hyp_alpha is (2 pi - sum of the angles of consecutive normals)/(4 pi), the tensor C has trace 3 hyp_alpha, is symmetric and is hyp_alpha I minus 1/(4 pi) times a sum over the edges; with at most three distinct normals the result depends only on their set. On smooth nodes hyp_alpha = 1/2, C = I/2. On convex edges hyp_alpha is the fraction of the sphere inside the domain and C is 3/(4 pi) times the integral of w w^T over the directions inside it; on reentrant edges both are the values of the complement of the domain (wrong: hyp_alpha is always smaller than the fraction of the domain). At corners where any number of flat faces meet, whatever the order and number of the cells: if the corner is convex, hyp_alpha is the fraction of the directions inside the domain and C is 3/(4 pi) times the integral of w w^T over them; if it is the complement of a convex corner, both are the values of the complement of the domain (hyp_alpha always too small). The vector b is the sum over all the cells at the node (through doubles), the same for all partitions. The normals of a dof are exactly those of the cells at support points that have the dof among their doubles, so all the doubles of a node get the same coefficients.", "quantifier": "all lists of cell normals, all wedge angles, orders of the cells, partitions; exact real arithmetic", "why_tests_cant": "Continuum of normals and orders of the cells; the tests only print the difference of alpha on a few meshes.", "anchors": ["source/bem_problem.cc: compute_hypersingular_free_coeffs"]}
{"id": "C67", "title": "Recovered gradients, surface gradients and normals are L2 projections", "statement": "For every mesh, with hanging nodes or not, and every way the cells are given to the processes: if the mass matrix systems assembled by compute_gradients, compute_surface_gradients and compute_normals are solved exactly, then after distributing the constraints the result is a continuous finite element field whose error (measured by the quadrature of the code) is orthogonal to all continuous fields, and no continuous field is closer to the projected vector. The system is symmetric and, if the quadrature sees every field and has positive weights, regular; the result is unique and does not depend on the partition, on the number of processes or on the numbers on the diagonals of constrained rows. Fields of the finite element space are recovered exactly: in particular the gradient of a linear potential on a surface with flat cells, at all dofs, and the normals of a plane. The recovered normals need not be unit vectors.", "quantifier": "all meshes, finite elements (as values of shape functions at quadrature points), hanging node constraints, partitions, numbers of processes, potentials and normal derivatives, any space dimension", "why_tests_cant": "A test checks one mesh and one partition to a tolerance that hides the linear solver; the projection property ranges over all fields and all partitions.", "anchors": ["source/bem_problem.cc: BEMProblem::compute_gradients, compute_surface_gradients, compute_normals"]}
{"id": "C68", "title": "Gradients from the hypersingular equation", "statement": "compute_gradients_hypersingular stores at every dof of the process three numbers g with C g + b phi = sum over the cells of the integral of (dphi/dn grad G - phi grad dG/dn), the gradients being derivatives with respect to the position of the node, with the integrals of singular cells taken from the singular integrator for the first local dof which is a double of the node. The values do not depend on the partition and are linear in phi and dphi/dn. At smooth nodes the result is twice the right hand side minus b phi.", "quantifier": "all meshes, double nodes, quadratures, partitions, potentials, normal derivatives and free coefficients with regular tensor", "why_tests_cant": "The vector is updated in place through two renumbering arrays on every process; an aliasing error or a sign of one kernel shows up only for particular numberings and meshes.", "anchors": ["source/bem_problem.cc: BEMProblem::compute_gradients_hypersingular", "include/laplace_kernel.h: LaplaceKernel::kernels"]}
{"id": "C69", "title": "What the printed errors measure", "statement": "For every solution, mesh and renumbering, compute_errors writes at every dof the solution minus the exact potential, at the place of each component of each dof the recovered gradient minus the wind function at the support point of that dof, and at every dof the normal derivative minus wind times the recovered normal. The three L_2 numbers printed are the norms over the surface of the error functions; the L_inf numbers of normal derivative and gradient are the largest nodal errors. The number printed as \"Phi Nodes error L_inf norm\" is instead the largest L2 error of a cell: it is at most the L_2 number and is not the nodal maximum.", "quantifier": "all solutions, exact functions, meshes, quadratures and renumbering permutations", "why_tests_cant": "The vectors are indexed through two renumbering arrays which are the identity in serial runs; a test on one mesh sees small numbers in all cases and cannot tell which norm is printed.", "anchors": ["source/boundary_conditions.cc: BoundaryConditions::compute_errors"]}
{"id": "C70", "title": "The free term b of the hypersingular equation", "statement": "The vector b a cell contributes at a node is tangent to the cell, zero for cells lying in a plane (with any mapping, point and angular rule), zero at the centre of every cell with every rule, and at other interior points not larger than the errors of the angular rule. With exact angular integration it is the integral of the normal curvature times the unit tangent vector over the angle in the tangent plane, and the contributions of cells closing up around a smooth node cancel. At non-smooth nodes it is 4 pi times the limit the equation needs (the factor 1/(4 pi) of all other terms is missing).", "quantifier": "all cells (first and second derivatives of the mapping), points of the reference cell, angular rules, cells around a node; exact real arithmetic", "why_tests_cant": "Continuum of shapes and of points; no test looks at b, which is zero on the flat and smooth meshes of the tests.", "anchors": ["source/singular_kernel_integral.cc: SingularKernelIntegral<3>::evaluate_free_term_b", "source/bem_problem.cc: compute_hypersingular_free_coeffs, compute_gradients_hypersingular"]}
{"id": "C71", "title": "Near field and preconditioner sparsity patterns match what is written", "statement": "For every mesh, octree, constraint set, partition of the dofs and thread schedule: the positions at which the near field assembly adds to its matrices are exactly the positions of the sparsity pattern created before; a position (i,j) is in it iff a cell with dof j has a directly integrated contribution to row i; a process only creates rows it owns and they equal those of a serial run; the diagonal and all dofs of cells touching the node or a double are present. The preconditioner pattern has, for constrained rows, the diagonal and the constraint columns, for the others the near field row, and every position set or added later (entries, alpha on the diagonal) is in it.", "quantifier": "all inputs, octrees, constraints, process partitions, thread schedules, recycled buffers", "why_tests_cant": "an add outside of the pattern is an error that shows only for particular meshes, levels and partitions; recycled buffers depend on the schedule", "anchors": ["source/bem_fma.cc: direct_integrals (215-670, 1026-1295)", "source/bem_fma.cc: FMA_preconditioner (3291-3535)"]}
{"id": "C72", "title": "Scalar and vector dofs are partitioned consistently among the processes", "statement": "After reinit, for every association of dofs with processes and every renumbering: every scalar and every vector dof is owned by exactly one process, a process owns all components of the vector quantities at a dof iff it owns the dof (the consistency asserted when boundary data are prepared), it owns dim vector dofs per scalar one; the dense matrices have on each process exactly the full rows of its dofs.", "quantifier": "all numbers of dofs, dimensions, processes, associations, renumberings", "why_tests_cant": "partitions depend on mesh and number of processes; the assertion is compiled out in release mode", "anchors": ["source/bem_problem.cc: reinit (225-360)", "source/boundary_conditions.cc: prepare_bem_vectors (assertion on vector_this_cpu_set)"]}
{"id": "C73", "title": "Reusing the FMA object over refinement cycles", "statement": "The map from dofs to cells used for the interaction lists is never emptied, so after any sequence of octree generations on refined and renumbered meshes it lists, for a dof number, the cells that had this number in any call. Whatever that history, each interaction of the current mesh is still taken exactly once, blocks and near neighbours are those of a new object and the interaction lists contain those of a new object, with equality when the cells still active kept their dofs. The lists are not independent of the history in general: a far block is integrated directly instead of through the expansions in a concrete two-cycle case.", "quantifier": "all histories of meshes, all octree inputs, all executions of the product", "why_tests_cant": "The stale entries depend on refinement and renumbering over several cycles; no test inspects the lists and the values only change by truncation error.", "anchors": ["source/bem_fma.cc:BEMFMA::generate_octree_blocking", "include/bem_fma.h:dof_to_elems"]}
{"id": "C74", "title": "The singular integrator returns Hadamard finite parts", "statement": "For every curved cell, every singular point in it (interior, edge or vertex) and every shape function, the hypersingular and the strongly singular integrals of the derivatives of the Green function over the cell have a Hadamard finite part (the integral over the points of the cell farther than eps from the singular point, minus its 1/eps and log eps terms, converges), and the values returned by evaluate_VkNj_integrals and evaluate_WkNj_integrals are that finite part with the integrals over the angles of each face replaced by the angular rule and the radial integrals of the subtracted (bounded) integrand replaced by the radial rule: if the rules are exact on these functions, the value is exactly the finite part.", "quantifier": "all maps of the reference square that are three times continuously differentiable, regular at the singular point and not self-touching there; all singular points of the cell; all twice differentiable shape functions; all components; all quadrature rules", "why_tests_cant": "Finite parts are limits of divergent integrals: a test compares a few cells at a few points with a tolerance that includes the quadrature error, and cannot separate a wrong finite part from a quadrature error.", "anchors": ["source/singular_kernel_integral.cc: SingularKernelIntegral<3>::evaluate_VkNj_integrals", "source/singular_kernel_integral.cc: SingularKernelIntegral<3>::evaluate_WkNj_integrals"]}
{"id": "C75", "title": "Constraints on meshes with hanging nodes", "statement": "The constraints of the linear system say exactly: the conditions at double nodes, and that the unknown at each hanging node is the interpolation of the unknowns at the ends of its edge; no constraint refers to a constrained dof. The program stops with an exception if a hanging node has a double node condition too; if no hanging node is on a boundary face the constraints are always built. After an exact solve the integral equation holds at all other nodes and the unknowns are interpolated at hanging nodes: the potential among Neumann nodes, the normal derivative among Dirichlet nodes. Between Neumann and Dirichlet nodes the potential is set to a mean of normal derivatives, so that it can jump. Each process has the entries its constraints refer to and no others.", "quantifier": "all meshes, double nodes, hanging nodes, boundary conditions, orders of the constraint lines, partitions, matrices and data", "why_tests_cant": "Merging and closing constraints is recursive, in an order depending on the numbering; conflicts and mixed configurations appear only on particular refined meshes, chosen by the error estimator.", "anchors": ["source/bem_problem.cc:BEMProblem::compute_constraints", "include/constrained_matrix.h:ConstrainedOperator::vmult", "source/bem_problem.cc:BEMProblem::solve_system"]}
{"id": "C76", "title": "Constant potentials are solved exactly; superposition", "statement": "With the alpha computed by the program, the data of a constant potential (constant at Dirichlet nodes, zero normal derivative elsewhere) give a system solved exactly by the constant potential with zero normal derivative, whatever mesh, quadrature, method and partition, if no hanging node mixes Dirichlet and Neumann nodes (otherwise the constant never solves it) and Dirichlet nodes coincide only at sharp edges; the surface gradients used at these edges are then zero. Solutions for two sets of data add up to the solution for the sum.", "quantifier": "all meshes, matrices whose row sums are compensated by alpha, partitions, double and hanging nodes, data", "why_tests_cant": "Independence of mesh, quadrature and method is a statement on all matrices; test runs show it up to rounding on a few meshes.", "anchors": ["source/bem_problem.cc:BEMProblem::compute_alpha", "source/bem_problem.cc:BEMProblem::compute_constraints", "source/bem_problem.cc:BEMProblem::compute_rhs", "source/bem_problem.cc:BEMProblem::vmult", "source/bem_problem.cc:BEMProblem::compute_surface_gradients"]}
{"id": "C77", "title": "What a solve returns", "statement": "If a solve returns, whatever happened before: prescribed values are untouched; at every node without constraint the potential and normal derivative returned satisfy the boundary integral equation collocated with the quadrature of the dense method, up to the residual with which the linear solver stopped plus, with the fast multipole method, the truncation error of the expansions and the difference of the singular quadratures - nothing is due to alpha; at double and hanging nodes they satisfy the constraints if the residual vanishes there; results of two solves with different methods, partitions, linear solvers or histories differ at most by the stability constant of the dense system times the sum of residuals and errors; number of processes and distribution of the dofs have no influence for one and the same linear solver.", "quantifier": "all meshes, singular quadratures, boundary conditions with at least one Dirichlet node, double and hanging nodes, linear solvers, histories of solves, partitions, both methods", "why_tests_cant": "The statement combines all parts of the solver and bounds the result by the residual actually reached; tests compare two digits on given meshes.", "anchors": ["source/bem_problem.cc:BEMProblem::solve", "source/bem_problem.cc:BEMProblem::solve_system", "source/bem_problem.cc:BEMProblem::assemble_system", "source/bem_fma.cc:BEMFMA::multipole_matr_vect_products"]}
{"id": "C78", "title": "Normal derivatives imposed at edges between Dirichlet faces", "statement": "On a polyhedral surface with doubled edges (or a polygon with doubled corners) and a linear potential prescribed on the Dirichlet faces, the values imposed on the normal derivatives where several Dirichlet faces meet (also more than two) are exactly the normal components of its gradient, whatever the data on Neumann faces, partition and numbering; the normals at the nodes of flat faces are exact; surface gradients on a face depend only on the data of that face. On Neumann faces the field written as phi_surf_gradient is the surface gradient of the prescribed normal derivative (zero for linear potentials), not of the potential; and if an edge between a Dirichlet and a Neumann face is not doubled, surface gradients are wrong at Dirichlet nodes even for constant potentials.", "quantifier": "all meshes, flat faces, linear potentials, data on the other faces, partitions, numberings, sets of double nodes, hanging nodes", "why_tests_cant": "A global linear system couples all faces; independence from the other data is a statement on all data. The output field looks plausible in every run.", "anchors": ["source/bem_problem.cc:BEMProblem::compute_constraints", "source/bem_problem.cc:BEMProblem::compute_surface_gradients", "source/bem_problem.cc:BEMProblem::compute_normals", "source/boundary_conditions.cc:BoundaryConditions::output_results"]}
{"id": "C79", "title": "What a solve with Neumann data only returns", "statement": "With Neumann data on the whole boundary, whatever the linear solver returns, at all nodes without constraint the boundary integral equation is violated by one and the same constant, which is the Euclidean norm of the double layer of the differences of the returned potential (so it is zero only if this double layer vanishes at all nodes), up to the residual of the linear solver and the error of the products; the final shift of the potential does not change this. The linear system has an exact solution only if the single layer of the data is almost a negative constant; if it has zero mean (as for symmetric flows) no linear solver can reduce the squared residual below (1 - 1/n) times its initial value.", "quantifier": "all meshes, methods, Neumann data, constraints, partitions, linear solvers, histories of previous calls", "why_tests_cant": "A claim on the results of every linear solver and for all data; a run with a given tolerance shows only one outcome (e.g. no convergence).", "anchors": ["source/bem_problem.cc:BEMProblem::vmult", "source/bem_problem.cc:BEMProblem::compute_rhs", "source/bem_problem.cc:BEMProblem::solve_system", "source/boundary_conditions.cc:BoundaryConditions::solve_problem"]}
{"id": "C80", "title": "Conformity is restored along a doubled edge exactly when one-sided bisections are uniform", "statement": "On the two sides of a straight doubled boundary edge bisected independently of each other, the loop of the domain which restores conformity of the edges always ends, never reads outside its tables, removes no vertex and adds only vertices the other side has had. Afterwards the two sides have the same vertices if and only if wherever only one side was bisected it was bisected uniformly. So after a cycle which only refines conformity is restored, while a cycle of the adaptive refinement which also coarsens can leave vertices of one side without a counterpart on the other. On a mesh with any number of doubled edges, with cells at the corners of several edges and whatever else the library refines, the loop ends after an explicitly bounded number of passes; if all edges were conforming and a cycle bisects the parts of any sides at most once, all doubled edges are conforming when the loop stops.", "quantifier": "all independent bisections of the two sides, of any depth, and all tolerances small compared with the smallest edge; all numbers of doubled edges, all behaviours of the library's refinement within its contracts", "why_tests_cant": "The configurations of bisections are unbounded and termination of the loop is a claim on all of them; the failing configurations need coarsening on one side and refinement on the other in the same cycle.", "anchors": ["source/computational_domain.cc:ComputationalDomain::make_edges_conformal", "source/computational_domain.cc:ComputationalDomain::compute_double_vertex_cache", "source/bem_problem.cc:BEMProblem::adaptive_refinement", "source/driver.cc:Driver::run"]}
{"id": "C81", "title": "A refinement cycle gives what a new run on the same mesh would give", "statement": "Although the program keeps static vectors, cached singular quadrature rules, cell lists and the mapping from one refinement cycle to the next, the result of a cycle is the result of a new run started directly on its mesh, for both methods, whenever the spheroid option is off, the number of degrees of freedom changed to its value on the same partition, and (fast multipole method) cells that stay active keep their degrees of freedom. With other numberings the products of the fast multipole method still differ from those of the new run by no more than twice the bound on the error of the method. The two exceptions are real: with the spheroid option the second cycle works on the undeformed mesh, and a new partition of the same number of degrees of freedom makes the cycle fail.", "quantifier": "all sequences of cycles of any length that went through, all meshes, partitions, data and linear solvers, both methods", "why_tests_cant": "The histories (sequences of meshes) are unbounded, and the state that survives is hidden in static variables; a test runs a few cycles on one mesh.", "anchors": ["source/driver.cc:Driver::run", "source/bem_problem.cc:BEMProblem::reinit", "source/bem_problem.cc:BEMProblem::compute_alpha", "source/bem_problem.cc:BEMProblem::get_singular_quadrature", "source/bem_fma.cc:BEMFMA::generate_octree_blocking"]}
{"id": "C82", "title": "Nodes at the same position carry the same equation", "statement": "At nodes that share a position (edges, corners) the collocated equations are identical, for the dense and for the fast multipole method. Hence, without hanging nodes: (a) with one Dirichlet value per position, the linear system is solved exactly if and only if the boundary integral equation holds at every node, including the nodes whose equation was replaced by a double node condition, and the potential has one value at every position; with `Continuos gradient across edges` on and Dirichlet nodes per position whose normals are pairwise not parallel and whose normal derivatives do not depend on the partner they are computed with (always so for at most two of them, or if the surface gradients are those of one vector: C92), the integral equation is dropped at the positions with two Dirichlet nodes and the two normal derivatives there are those of the vector with the two given surface gradients; (b) with the option off, two Dirichlet nodes at one position with different data make the system unsolvable unless the row sum of the double layer vanishes (the residuals differ by row sum times difference of the data); (c) with the option off, two Dirichlet nodes at one position always make the system singular: whatever is returned, there is a direction along which the result can be changed without changing the residual.", "quantifier": "all meshes, positions and groups of coincident nodes, all boundary data, both methods, all linear solvers and histories of previous calls", "why_tests_cant": "The claim ranges over all meshes and data and over all solver results; a test would look at one edge with one solver and could not see that a whole line of answers has the same residual.", "anchors": ["source/bem_problem.cc:BEMProblem::compute_constraints", "source/bem_problem.cc:BEMProblem::assemble_system", "source/bem_problem.cc:BEMProblem::solve_system", "source/bem_fma.cc:BEMFMA::direct_integrals", "source/bem_fma.cc:BEMFMA::multipole_matr_vect_products"]}
{"id": "C83", "title": "The result does not depend on the numbering of the degrees of freedom", "statement": "The degrees of freedom are renumbered by subdomain, so their numbers change with the number of processes and the partition. For every mesh and every renumbering, the matrices of the dense and of the fast multipole method of the renumbered problem are the renumbered matrices. With one Dirichlet value per position and, when continuous gradients are requested, Dirichlet nodes per position whose normals are pairwise not parallel and whose normal derivatives do not depend on the partner they are computed with (always so for at most two of them, or if the surface gradients are those of one vector: C92): if the linear system is regular, exact solves of two runs with different numberings, partitions, numbers of processes, linear solvers, and different earlier calls, give the same potential and the same normal derivative at every node. With three Dirichlet nodes at one position (a corner), the gradient option on and surface gradients that are not those of one vector, this fails: there are a problem and a renumbering of it whose exact solutions have different normal derivatives at the corner.", "quantifier": "all meshes, all permutations of the degrees of freedom, all partitions and numbers of processes, all boundary data, both methods, all linear solvers that return exact solutions", "why_tests_cant": "A test compares a few process counts on one mesh; the claim is about every permutation, and the exception needs a corner of Dirichlet faces with gradients that are not traces of one vector.", "anchors": ["source/bem_problem.cc:BEMProblem::reinit", "source/bem_problem.cc:BEMProblem::assemble_system", "source/bem_problem.cc:BEMProblem::compute_constraints", "source/bem_problem.cc:BEMProblem::solve_system", "source/bem_fma.cc:BEMFMA::generate_octree_blocking", "source/bem_fma.cc:BEMFMA::multipole_matr_vect_products"]}
{"id": "C84", "title": "Curvature refinement: direction of projection, size requirement, termination", "statement": "With CAD surfaces and curvature refinement on: the direction along which the centre of a cell is projected on its surface is, for every flat convex cell, the unit normal of the cell; for every cell it is equivariant under rotations, translations and uniform scalings and changes sign with the orientation. A cell with a surface is flagged exactly if its longer diagonal exceeds ten tolerances and the configured number of cells per circle times the diagonal exceeds the circumference of the smallest circle of curvature (radii cut off at 1/tolerance); on a sphere or cylinder of radius R: exactly if cells_per_circle times the diagonal exceeds 2πR. If the loop ends before the maximum number of cycles, every cell of the mesh of the last cycle satisfies the requirement. Contrary to the comment in the code, cells without surface are refined if large enough; cells with material id 0 read before the list of surfaces; a cell with surface and without defined direction has no defined target size.", "quantifier": "all cells, all rotations, translations and scalings, all CAD surfaces (arbitrary curvature functions), all tolerances and numbers of cells per circle, all refinement procedures, all maximum numbers of cycles", "why_tests_cant": "A test runs one CAD file; the claims are about every quadrilateral and every curvature function, and the exceptions need cells or material ids no shipped case has.", "anchors": ["source/computational_domain.cc:ComputationalDomain::refine_and_resize"]}
{"id": "C85", "title": "Rigid motions and the unit of length", "statement": "Dense method in three dimensions. If a surface is rotated, reflected, translated and scaled uniformly by s (x -> s Q x + b, normals turned by Q, Neumann data divided by s, Dirichlet data unchanged), on whatever partitions, the assembled double layer matrix is the same, the single layer matrix is multiplied by s, and exact solves give the same potential at every node and normal derivatives divided by s; recovered gradients and surface gradients are turned by Q and divided by s, recovered normals are turned. A rigid motion (s = 1) leaves the complete result of a run the same, exception or not, for every linear solver, exact or not, with double nodes and hanging nodes. The set of double nodes is unchanged by rigid motions. It is not unchanged by a change of the unit of length: the tolerance 1e-10 is absolute, and any two edge nodes become double nodes of each other in a suitable unit. With hanging nodes the solve interpolates the unknowns of the linear system: under a change of unit an exact result stays exact if and only if no hanging node takes from nodes of the other kind (Dirichlet or Neumann) a contribution that does not sum to zero; so exact results are the same in every unit if hanging nodes lie between nodes of their own kind, and in general they are not: at a Neumann hanging node next to a Dirichlet node the potential is interpolated from a normal derivative and depends on the unit of length.", "quantifier": "all meshes, all orthogonal matrices, translations and scales, all boundary data, all partitions and linear solvers, all quadratures", "why_tests_cant": "A test compares one surface with one motion; the claim is about every surface and every similarity, and the exception needs very small units.", "anchors": ["source/bem_problem.cc:BEMProblem::assemble_system", "include/laplace_kernel.h:kernels", "source/bem_problem.cc:BEMProblem::compute_gradients", "source/bem_problem.cc:BEMProblem::compute_double_nodes_set"]}
{"id": "C86", "title": "The plane problem: equation solved, partitions, motions, unit of length", "statement": "In dimension two: (a) every entry of the two dense matrices is the layer potential, with the logarithmic kernel, of a shape function at a node, computed with the singular quadrature of the first local dof of the cell coinciding with the node, if any; rows of other processes stay zero. (b) The result of a run does not depend on the number of processes or the distribution of the dofs. (c) After every history of calls, prescribed data are untouched and at every unconstrained node the residual of the collocated boundary integral equation is that of the linear solver. (d) With the fast multipole method the run always ends with an exception and nothing changed. (e) Rigid motions of the curve change nothing in the result of any run. (f) A change of the unit of length does: with normal derivatives divided by s, the residual of the equation changes by log(s)/2pi times the flux, so that results carry over exactly when the flux vanishes or s = 1, and for every curve with an equilibrium density of nonzero charge there is a unit of length in which the normal derivatives are not determined by the potential.", "quantifier": "all curves, meshes, quadratures, boundary data, partitions, histories of calls, linear solvers, orthogonal matrices, translations and scales", "why_tests_cant": "A test runs one curve in one unit of length; the degenerate unit is a single number depending on the curve that no test hits.", "anchors": ["source/bem_problem.cc:BEMProblem::assemble_system", "source/bem_problem.cc:BEMProblem::solve", "source/bem_problem.cc:BEMProblem::get_singular_quadrature", "include/laplace_kernel.h:kernels"]}
{"id": "C87", "title": "Free coefficients in dimension two", "statement": "Every solve of a plane problem computes, without exception, free coefficients for each node. At smooth nodes hyp_alpha = 1/2 and C = I/2. At convex corners hyp_alpha is the fraction of the circle inside the domain, at reentrant ones the fraction outside (wrong: always smaller than the fraction inside). C is hyp_alpha times the identity for every list of normals (the correction is multiplied by the integer quotient 1/2 = 0), so at no corner is it the tensor 1/pi times the integral of w w^T over the directions inside the domain. The vector b is zero at every node of every curve. The normals kept are normals of the cells of the node, at least 1e-5 apart and covering all of them.", "quantifier": "all lists of normals, all corner angles between 0 and 2 pi, all curves and partitions; exact real arithmetic", "why_tests_cant": "Continuum of corner angles; the program prints no tensor, and plane test problems have no corners.", "anchors": ["source/bem_problem.cc:BEMProblem::compute_hypersingular_free_coeffs", "source/singular_kernel_integral.cc:SingularKernelIntegral<2>::evaluate_free_term_b"]}
{"id": "C88", "title": "Fast multipole method on small domains and with one level", "statement": "If all the coordinates of the nodes are at most 1/2200 in absolute value (the root cube has side at most the absolute tolerance 0.001 of the neighbour test), or if the octree has one level, the fast multipole product is exactly the product without expansions, and equals the product with the matrices of the direct method when the singular quadratures are the same, for every truncation order, schedule and partition. The unit of length matters: the same mesh uses expansions in one unit and not in another one.", "quantifier": "all meshes with such coordinates (or one level), all data, schedules of the threads, reuses of buffers and ownerships of rows; both kernels", "why_tests_cant": "All meshes below the size, all schedules; a test compares two floating point results up to a tolerance and cannot show that no expansion is ever used.", "anchors": ["source/bem_fma.cc:TOLL", "source/bem_fma.cc:BEMFMA::generate_octree_blocking", "source/bem_fma.cc:BEMFMA::multipole_matr_vect_products"]}
{"id": "C89", "title": "Recovered normals and gradients do not depend on numbering or partition", "statement": "Two runs on the same mesh, with different subdomain-wise numberings of the scalar and vector degrees of freedom, different partitions and numbers of processes, recover the same normals, surface gradients and gradients at corresponding degrees of freedom and read them at corresponding positions; hence exact solves of the whole problem give the same potential, normal derivative and gradient at every node, in dimension 3 (both methods, hanging nodes included) and in dimension 2.", "quantifier": "all meshes with constraints, all pairs of renumberings of scalar and vector dofs, all partitions and numbers of processes, all boundary data, both methods", "why_tests_cant": "All renumberings and partitions; a test compares a few numbers of processes up to a tolerance.", "anchors": ["source/bem_problem.cc:BEMProblem::compute_normals", "source/bem_problem.cc:BEMProblem::compute_surface_gradients", "source/bem_problem.cc:BEMProblem::compute_gradients", "source/bem_problem.cc:BEMProblem::compute_reordering_vectors", "source/bem_problem.cc:BEMProblem::solve_system"]}
{"id": "C90", "title": "Ghost entries suffice; processes that own no degree of freedom", "statement": "The ghost entries of a process are exactly the entries read when it evaluates potentials, normal derivatives and surface gradients on its cells. When the solution is stored, a process completes without accessing the first element of an empty set iff some dof of its cells lies on no cell of a process with a lower number; then it stores at its own dofs exactly what a serial run stores. With more processes than dofs some process always fails, and a process that has a cell may fail even on arbitrarily large meshes.", "quantifier": "all meshes, partitions of the cells, numbers of processes, vectors and renumberings", "why_tests_cant": "Partitions and numbers of processes are unbounded; the failing access is undefined behaviour in release mode and depends on the partitioner.", "anchors": ["source/bem_problem.cc:BEMProblem::reinit", "source/bem_problem.cc:BEMProblem::solve_system", "source/bem_problem.cc:BEMProblem::compute_gradients", "source/bem_problem.cc:BEMProblem::compute_surface_gradients"]}
{"id": "C91", "title": "Exact solves with hanging nodes and in dimension 2: what they return, independence of the numbering", "statement": "On meshes with hanging nodes (that are not double nodes), for both methods in dimension 3 and for the dense method in dimension 2, with one Dirichlet value per position and, when continuous gradients are requested, Dirichlet nodes per position whose normals are pairwise not parallel and whose normal derivatives do not depend on the partner they are computed with (always so for at most two of them, or if the surface gradients are those of one vector: C92): the linear system is solved exactly iff the boundary integral equation holds at every node that is neither hanging nor at a position with two Dirichlet nodes (option on), the potential has one value at every position, the normal derivatives at two Dirichlet nodes are those of the vector with the given surface gradients, and the unknown at each hanging node is interpolated. If the system is regular, exact solves of two runs with different numberings, partitions, numbers of processes, linear solvers and histories give the same potential and normal derivative at every node.", "quantifier": "all meshes with hanging nodes, curves in the plane, permutations of the dofs, partitions, boundary data, linear solvers that return exact solutions, histories of calls", "why_tests_cant": "All permutations and partitions, all refined meshes; equivalence of an overdetermined set of conditions with the assembled system.", "anchors": ["source/bem_problem.cc:BEMProblem::solve", "source/bem_problem.cc:BEMProblem::compute_constraints", "source/bem_problem.cc:BEMProblem::assemble_system", "include/constrained_matrix.h:ConstrainedOperator::vmult"]}
{"id": "C92", "title": "Edges and corners of the Dirichlet boundary: error of the imposed normal derivatives", "statement": "With continuous gradients requested, at a position with two or more Dirichlet nodes (edge, or corner where three or more faces meet) every exact solve returns normal derivatives within eps/(1-c) of those of a vector g, if the surface gradients used there are the tangential parts of g up to errors of length eps, the normals are unit vectors and c < 1 bounds the absolute values of their scalar products with that of the node; with eps = 0 they are exactly g.n. Hence two runs with different numberings, partitions and numbers of processes differ there by at most 2 eps/(1-c), although the partner used at a corner depends on the numbering (C83). Consistent surface gradients make C82, C83, C89 and C91 hold at corners with any number of Dirichlet nodes.", "quantifier": "all meshes, corners with any number of faces, normals, surface gradients, numberings, linear solvers that return exact solutions", "why_tests_cant": "All angles, numbers of faces and numberings; a test sees one error for one geometry.", "anchors": ["source/bem_problem.cc:BEMProblem::compute_constraints", "source/bem_problem.cc:BEMProblem::solve"]}
{"id": "C93", "title": "Number of cycles: accepted values and what is run", "statement": "The input file accepts every int as number of cycles and of initial refinements. If both are not negative, the run ends with exactly the steps of C40. A negative number of cycles is not rejected: with local refinement, -1 gives a run that never ends (any number of solves, no results written), and k < -1 gives 2^32 + k + 1 solves, more than 2^31; with global refinement the mesh is to be refined 2^32 + k times before the only solve.", "quantifier": "all values accepted by the input file, both refinement modes, all lengths of execution", "why_tests_cant": "Non-termination and 2^31 solves cannot be observed; all 2^32 accepted values are covered.", "anchors": ["source/driver.cc:Driver::run", "source/computational_domain.cc:ComputationalDomain::declare_parameters", "source/computational_domain.cc:ComputationalDomain::parse_parameters", "include/computational_domain.h:n_cycles"]}
{"id": "C94", "title": "What the tolerance of the linear solver guarantees", "statement": "Wherever the linear solver stops, the conditions at double nodes and hanging nodes are violated by no more than the residual at each node: a vector of unknowns satisfying them exactly is within the residual, and the potentials at two nodes of one position differ at most by the two residuals. If the preconditioned residual is below the tolerance tol and the preconditioner shrinks no vector by more than p, the collocated equations hold up to p*tol and the jumps are at most 2*p*tol. The tolerance is absolute and the initial guess is zero: for every problem, if the data are multiplied by a small enough positive number (other units), the solve returns, and it returns zero for every unknown, also where a Neumann node shares its position with a Dirichlet node of nonzero potential.", "quantifier": "all geometries, matrices, data, constraints, histories of calls, preconditioners, tolerances; both methods and both dimensions", "why_tests_cant": "The bounds hold for every stopping point of the solver and every preconditioner; the loss of small data happens at a scale that depends on the problem.", "anchors": ["source/bem_problem.cc:BEMProblem::solve_system", "source/bem_problem.cc:BEMProblem::compute_constraints", "source/bem_problem.cc:BEMProblem::parse_parameters", "include/constrained_matrix.h:ConstrainedOperator"]}
{"id": "C95", "title": "Runs with local refinement: meshes and results over all cycles and processes", "statement": "In a run with local refinement every process refines its own copy of the mesh. Whatever the numbers of processes and cycles, the copies are equal whenever a collective operation is entered and at the end of the run, so the run fails only where a solve fails. The run goes through iff separate new runs on each of its meshes do, and its result is that of a new run on the last mesh, each mesh being determined by the result of a new run on the one before. With exact linear solves two runs with different numbers of processes work on the same sequence of meshes and return the same values at every node. With inexact solves they mark the same cells if the estimates of the marked cells exceed the others by more than twice the difference of the estimates; without such a gap they may mark different cells, however close the estimates are.", "quantifier": "all numbers of processes and cycles, all initial meshes, partitions, numberings, data, error estimators and refinement algorithms, both methods", "why_tests_cant": "The sequence of meshes is unbounded and each depends on all earlier solves and on state hidden in the objects; a test runs a few cycles on one number of processes.", "anchors": ["source/driver.cc:Driver::run", "source/bem_problem.cc:BEMProblem::adaptive_refinement", "source/computational_domain.cc:ComputationalDomain::update_triangulation", "source/bem_problem.cc:BEMProblem::reinit", "source/boundary_conditions.cc:BoundaryConditions::solve_problem"]}
{"id": "C96", "title": "Numbers computed for rows of other processes never reach the results", "statement": "In the fast multipole product every process also adds numbers to vector entries it does not own (those of all nodes in a block in which it owns at least one). For every number of processes, distribution of the dofs, schedule and content of the vectors before the call, the operator applied by the linear solver, the right hand side and alpha hold, at the owner of each entry, exactly the values of a run without processes; no such addition is delivered, and the operator leaves nothing pending in its output. The additions pile up in alpha: after m solves on a mesh m times those of one solve, without effect on its values.", "quantifier": "all meshes, numbers of processes, distributions of the dofs, schedules of the threads, vectors with arbitrary pending additions, numbers of solves", "why_tests_cant": "Whether a process touches rows of another one depends on the mesh, the octree and the partition; a delivered addition would be counted twice only there.", "anchors": ["source/bem_fma.cc:BEMFMA::multipole_matr_vect_products", "source/bem_problem.cc:BEMProblem::vmult", "source/bem_problem.cc:BEMProblem::compute_rhs", "source/bem_problem.cc:BEMProblem::compute_alpha"]}
{"id": "C97", "title": "Octree and expansion parameters: what every accepted value does", "statement": "The input file accepts every int for the number of octree levels, the nodes per childless block and the truncation order. A negative number of nodes per block, or one not below the number of nodes of the mesh, switches the expansions off: with any positive number of levels the fast multipole product is exactly the product without expansions. With 0 every block holding a node is subdivided down to the last level. Levels 1..2^31-1 give tables of the size the construction uses; 0 gives a table of blocks without entries, -1 tables by level without entries (both written out of bounds), smaller values tables of more than 2^31 entries. The table of blocks has levels*cells*quadrature points entries exactly when this is below 2^32. Exactly the orders 0..10 keep all the table lookups inside the tables.", "quantifier": "all accepted parameter values, all meshes up to 2^31 nodes, all data, schedules and ownerships", "why_tests_cant": "2^96 accepted parameter triples, and exactness for all meshes, truncation orders and schedules.", "anchors": ["source/bem_fma.cc:BEMFMA::declare_parameters", "source/bem_fma.cc:BEMFMA::parse_parameters", "source/bem_fma.cc:BEMFMA::generate_octree_blocking", "include/bem_fma.h:num_octree_levels"]}
{"id": "C98", "title": "Threads of the fast multipole product at the level of single memory accesses", "statement": "Let the setup (near field matrix, element expansions) and any sequence of fast multipole products run with any number of threads, and let the single reads and writes of all the threads be interleaved in any order (sequentially consistent memory). Every product then contains the result of an execution in which worker calls, copier calls and loop iterations are indivisible; in particular the owned rows of every product are those of one fixed matrix, whatever the interleavings, the previous products and the initial memory. Two threads make conflicting accesses to three locations at most: the two members of the static translation table of the local expansions and the timer of the descending phase; and the conflicting writes write what is already there. The program is not free of data races in the strict sense: with at least two blocks every product has an execution in which a thread is about to write the static table while another is about to read it.", "quantifier": "all octrees with at least one level, all data, ownerships, sequences of vectors, initial memories, numbers of threads, chunks, item orders, recycling of copy data objects and interleavings of single memory accesses", "why_tests_cant": "The interleavings of single accesses of many threads cannot be enumerated; a data race that rarely changes a result is not seen by a test.", "anchors": ["source/bem_fma.cc:BEMFMA::direct_integrals", "source/bem_fma.cc:BEMFMA::multipole_integrals", "source/bem_fma.cc:BEMFMA::generate_multipole_expansions", "source/bem_fma.cc:BEMFMA::multipole_matr_vect_products", "source/local_expansion.cc:LocalExpansion::operator=", "include/local_expansion.h:mExp_to_lExp_Coeff"]}
{"id": "C99", "title": "Aspect ratio reduction: which limits are met and at which cost", "statement": "On meshes of flat parallelograms where only flagged cells are refined, the aspect ratio loop with a limit of at least sqrt(2) replaces every cell of ratio up to 1024 times the limit by 2^k equal cells within the limit, k the least sufficient number of halvings, cells being treated independently. For every smaller limit some cell of ratio below 2 is never brought within the limit: between 1 and sqrt(2) cells of ratio above the limit r and below 2/r are cut alternately in both directions, so that 1024 cells of the same ratio replace each one; with a limit below 1, zero or negative (the input file accepts any number) every cell is replaced by 1024 cells, none within the limit.", "quantifier": "all meshes of flat cells with positive extents, all limits", "why_tests_cant": "All real extents and limits; the threshold is an irrational number.", "anchors": ["source/computational_domain.cc:refine_and_resize", "source/computational_domain.cc:declare_parameters"]}
{"id": "C100", "title": "Rounding errors of the assembly and of the products; reproducibility over threads and processes", "statement": "With a relative error u in every addition and multiplication, every execution of the assembly of the near field matrices (any threads, any order of the blocks, any distribution of the rows) gives in the owned rows the exact entries up to ((1+u)^n - 1) times the sum of the absolute values of the terms, with n = number of points of the largest rule + 2 + number of regular points of the cells around the column dof; two runs differ by at most twice that. The same holds for the dense assembly with respect to the exact sums. The computed operator differs from the exact one by at most ((1+u)^(n+4) - 1) times the sum of the absolute values of its terms, n the number of dofs, for every order of the columns; with the free coefficients computed from the same matrix a constant potential is annihilated up to 2((1+u)^(2n+5) - 1) times the constant times the sum of the absolute values of the row.", "quantifier": "all meshes, quadratures, kernel values, matrices, roundings with relative error u, schedules, ownerships, orders of summation", "why_tests_cant": "Floating point addition is not associative: every schedule gives a different result, and the bound has to hold for all of them and for every data.", "anchors": ["source/bem_fma.cc:BEMFMA::direct_integrals", "source/bem_problem.cc:BEMProblem::assemble_system", "source/bem_problem.cc:BEMProblem::compute_alpha", "source/bem_problem.cc:BEMProblem::vmult"]}
{"id": "C101", "title": "Collective operations match on all processes: a run never hangs", "statement": "If every process owns at least one dof in every cycle, then no execution of a run hangs: whatever the order in which the processes reach their collective operations (reductions, broadcasts, copies of vectors, assemblies, products, solver steps, and the assemblies hidden in element accesses that switch between insertion and addition), all processes make the same sequence of them, every execution is finite, and at its end either all processes have ended or all of them have failed; no compress is called in a mode other than that of the accesses before it. If the solvers converge within their limit and the method is available in the dimension, all processes end. If in some cycle, the first or a later one, a process owns no dof while another one does, then every execution ends with a process that has failed at the end of the solution while another one waits for it for ever.", "quantifier": "all numbers of processes, meshes, partitions, boundary conditions, methods, solvers, refinements, answers of reductions and orders of arrival", "why_tests_cant": "A hang depends on partition, boundary data and schedule: a collective operation under a condition that differs between processes is not seen unless a test meets that condition.", "anchors": ["source/driver.cc:Driver::run", "source/boundary_conditions.cc:BoundaryConditions::solve_problem", "source/boundary_conditions.cc:BoundaryConditions::compute_errors", "source/bem_problem.cc:BEMProblem::reinit", "source/bem_problem.cc:BEMProblem::solve_system", "source/bem_problem.cc:BEMProblem::vmult", "source/bem_fma.cc:BEMFMA::FMA_preconditioner", "include/constrained_matrix.h:ConstrainedOperator::vmult"]}
{"id": "C102", "title": "Scalars and vectors must be given elements of the same order", "statement": "The orders of the elements of the potential and of the vector quantities are independent parameters that the program does not compare. If they are equal (continuous elements), the vector (normal, gradient) the program reads at a dof of the potential is the one at the node of that dof. If the order of the vectors is higher and there are at least two cells, the dof of a vertex which is in the second cell and not in the first reads, for every vector field, the vector of a node of the first cell that is not a vertex; the Neumann datum prescribed there is the wind at the vertex times the normal at this other node; and the vector dofs of the nodes numbered last belong to no process. If the order of the vectors is lower, there are dofs of the potential for which the last component is looked up outside the table of the vector dofs.", "quantifier": "all meshes of lines or quadrilaterals, pairs of orders, renumberings by subdomains, vector fields, boundary data", "why_tests_cant": "A test with a constant field, or with one cell, or with equal orders gives right values; no check in the program compares the orders, and the wrong values are plausible numbers.", "anchors": ["source/bem_problem.cc:BEMProblem::parse_parameters", "source/bem_problem.cc:BEMProblem::reinit", "source/bem_problem.cc:BEMProblem::compute_reordering_vectors", "source/boundary_conditions.cc:BoundaryConditions::prepare_bem_vectors"]}
{"id": "C103", "title": "Output files for every interleaving of the processes and every point at which a run stops", "statement": "All processes open, truncate and write the same two mesh files, without any synchronisation. Whatever the order of their operations and whatever was in the files before, a run that ends leaves both mesh files complete and equal to the mesh of the last solve, the error and result files complete and for that mesh, and touches no other file; the six names are different for every output name. If the run stops at any point: each error or result file is what it was before the run or the beginning of what a complete run writes, and each is touched only when the preceding ones (vector error, scalar error, scalar results, vector results) are complete; so new vector results imply new scalar results. With one process a mesh file is the old one or the beginning of the file of one of the meshes of the run, and results are touched only when the mesh files are final. Limits: results of an earlier run beside the new mesh, and new scalar results beside old vector results, are possible after a stop; with two processes a mesh file can start with zeros, every byte being otherwise the right byte of one of the meshes.", "quantifier": "all numbers of processes, interleavings, splittings of the written data, stopping points, earlier contents, output names, meshes, numbers of cycles", "why_tests_cant": "A test sees one interleaving and one point of termination; truncation by one process while another is writing depends on timing.", "anchors": ["source/computational_domain.cc:ComputationalDomain::refine_and_resize", "source/computational_domain.cc:ComputationalDomain::update_triangulation", "source/boundary_conditions.cc:BoundaryConditions::compute_errors", "source/boundary_conditions.cc:BoundaryConditions::output_results", "source/driver.cc:Driver::run"]}
{"id": "C104", "title": "Which boundary condition a cell gets from the parameter file", "statement": "Every list of numbers below 2^32 separated by commas in the parameter file is read as written, whatever spaces surround the numbers and whatever leading zeros they have; blanks give the empty list. A node all of whose cells have a material of the Dirichlet list gets the prescribed potential; if none has but all are in the Neumann list, the normal component of the prescribed wind; if all are in neither list, zero flux (no message). A material in both lists is Dirichlet. Only the sets of ids matter, not their order or repetitions.", "quantifier": "all lists of ids, ways of writing them, meshes, partitions, nodes and data", "why_tests_cant": "The lists and the ways of writing them are unbounded; tests use one or two parameter files.", "anchors": ["source/computational_domain.cc:ComputationalDomain::parse_parameters", "source/bem_problem.cc:BEMProblem::compute_dirichlet_and_neumann_dofs_vectors", "source/boundary_conditions.cc:BoundaryConditions::prepare_bem_vectors"]}
{"id": "C105", "title": "Which CAD files are used and on which surface new vertices are put", "statement": "The search for CAD files ends if and only if some number from 1 on has no readable file, and has then read exactly the files before the first gap; files after a gap are ignored. The tolerance of the projectors is the given ratio times the largest tolerance of all surfaces and curves, 0 without shapes. If the input grid name is one of the three names of the sphere and circle grids, every new vertex is put on the sphere, whatever ids the file has and even if CAD is used; with any other name (including another path to the same grid) it is put on the CAD curve or surface of its id if CAD is used, and on no curved surface otherwise.", "quantifier": "all directories, numbers of files, tolerances, grid names, ids, objects of the mesh", "why_tests_cant": "Depends on the set of files and on names; each test has one directory and one grid.", "anchors": ["source/computational_domain.cc:ComputationalDomain::read_domain", "source/computational_domain.cc:ComputationalDomain::refine_and_resize"]}
{"id": "C106", "title": "The parameter file: which files are accepted and what every member is set to", "statement": "A parameter file is accepted if and only if its subsections are balanced and exist and every assignment is to an existing entry with an admissible value; a misspelt name or a wrong value is never ignored, and no accepted file makes the reading phase fail. After an accepted file every member has the value of the last assignment to its own entry (explicit table: subsection, name, type), or the default: entries with the same name in different subsections are not confused. Order, repetitions and the functions of the other dimension have no effect. Integers are those of 32 bits; a negative one becomes itself plus 2^32. The lists of ids are read number by number without overflow. The fast multipole method uses the rule of Gauss whatever the quadrature type is, so it uses the rule of the dense matrices if and only if the type is gauss; for the types without order it has no quadrature point.", "quantifier": "all parameter files (lists of lines of any length and nesting), both dimensions", "why_tests_cant": "Tests read one or two files; the files are unbounded.", "anchors": ["source/main.cc:main", "source/driver.cc:Driver::declare_parameters", "source/computational_domain.cc:ComputationalDomain::declare_parameters", "source/computational_domain.cc:ComputationalDomain::parse_parameters", "source/bem_problem.cc:BEMProblem::declare_parameters", "source/bem_problem.cc:BEMProblem::parse_parameters", "source/bem_fma.cc:BEMFMA::parse_parameters", "source/boundary_conditions.cc:BoundaryConditions::parse_parameters", "source/bem_fma.cc:BEMFMA::generate_octree_blocking"]}
{"id": "C107", "title": "Cost of the fast multipole product grows linearly with the mesh", "statement": "If the finest boxes of the octree are larger than the fixed tolerance 0.001 of the neighbour tests and than the cells around each node, every block receives at most 189 converted expansions (27 in the plane), has at most 27 (9) blocks in its interaction list and at most 26 (8) bigger blocks integrated directly; in one product the evaluations of an expansion at the nodes of a block are at most 26 times the number of blocks, the pairs of blocks integrated directly for the near-field matrices at most 53 times. So with L levels, m nodes per leaf and W distinct positions the operations between blocks are at most 294(9+8(L-1)W/(m+1/2)): linear in the number of nodes. The evaluations at single nodes are at most D(m+1/2) times those of a block, D being the number of nodes sharing a position. In a domain with coordinates at most 1/2200 the direct pairs grow like the square of the number of leaves instead.", "quantifier": "all meshes and quadrature points, levels, capacities, dimensions 2 and 3", "why_tests_cant": "Timing a few meshes gives a trend, not a bound for every distribution of nodes.", "anchors": ["source/bem_fma.cc:BEMFMA::multipole_matr_vect_products", "source/bem_fma.cc:BEMFMA::direct_integrals", "source/bem_fma.cc:BEMFMA::generate_octree_blocking"]}
{"id": "C108", "title": "Fast multipole method in another unit of length", "statement": "Multiplying all coordinates by a positive f, the fast multipole method builds the same octree (same blocks, numbering, nodes and points), with corners and sides multiplied by f. If in both units the finest boxes are larger than the fixed tolerance 0.001, the same pairs of blocks interact directly and through expansions, the truncated expansions give exactly the same double layer operator and the single layer operator multiplied by f, for every order, schedule and distribution; so exact solves of the same physical problem in the two units give the same potential and normal derivatives divided by f: the truncation error does not depend on the unit.", "quantifier": "all meshes, units of length with boxes larger than 0.001, data, orders of the expansions, boundary conditions, partitions, schedules and linear solvers", "why_tests_cant": "Running one mesh in two units compares two outputs up to the tolerances of the solver; that boxes, lists and truncated expansions correspond exactly must hold for every mesh and factor.", "anchors": ["source/bem_fma.cc:BEMFMA::generate_octree_blocking", "source/bem_fma.cc:BEMFMA::multipole_matr_vect_products", "source/multipole_expansion.cc", "source/local_expansion.cc"]}
{"id": "C109", "title": "Fast multipole method for surfaces far from the origin", "statement": "The octree is a cube around the origin, not around the surface. If the surface, of extent w, is smaller than the boxes of a level, that level has at most 2^d blocks; if it is smaller than the finest boxes, of side 2.2 M/2^L with M the greatest coordinate, no expansion is used and the fast multipole product is exactly the sum of all direct interactions. So for every mesh and number of levels, displacing the surface by M+(10+2^L)w or more makes the fast multipole method the direct one: the method is not invariant under translations, while the dense one is (C85).", "quantifier": "all meshes, numbers of levels L, displacements, orders, schedules, partitions", "why_tests_cant": "A test displaces one mesh; that expansions disappear for every mesh and from which distance follows from the geometry of the tree.", "anchors": ["source/bem_fma.cc:BEMFMA::generate_octree_blocking", "source/bem_fma.cc:BEMFMA::multipole_matr_vect_products"]}
{"id": "C110", "title": "Exit status of the program", "statement": "The exit status of every process, and the whole final state, is the same for every order in which the processes reach their collective operations. If every process owns a dof in every cycle, all processes return 0 or all return 1: 0 if the method is available in the dimension (direct, or dimension 3) and the solvers converge within their limit; 1, always, if the method is not available or one of the solves (normals, surface gradients, gradients, linear system) cannot converge. If a process owns no dof in one of the cycles, as it must if there are more processes than dofs, no process ever returns 0. Whatever the meshes, at the end all processes have returned 0, or none has and one has returned 1. So a single 0 says that everything was solved: every process owned a dof in every cycle, the method is available, and no solve was one that cannot converge.", "quantifier": "all numbers of processes, meshes, partitions, methods, solvers, refinements, answers of reductions and orders of arrival", "why_tests_cant": "A test sees the status of a few runs; a failure that one process survives, or that is caught on one process only, is seen only under its own schedule and partition.", "anchors": ["source/main.cc:main", "source/driver.cc:Driver::run", "source/bem_problem.cc:BEMProblem::solve_system"]}
{"id": "C111", "title": "Orientation of the surface", "statement": "Describing the same surface with the opposite normals changes the sign of the double layer matrix, of alpha and of the prescribed and computed normal derivatives, of the nodal normals, and changes nothing else: the single layer matrix, the prescribed and computed potentials, the recovered surface gradients and total gradients are the same; with both methods, every partition and number of processes, and every schedule of the fast multipole product. On meshes with hanging nodes this holds for exact solves if hanging nodes lie between nodes of their own kind (Dirichlet or Neumann). So the domain in which the problem is solved is decided by the geometry alone: turning the normals of a mesh does not turn an interior problem into an exterior one.", "quantifier": "all meshes, orders of expansions, quadratures, densities, boundary conditions, partitions, schedules, linear solvers", "why_tests_cant": "Test meshes have outward normals; a kernel, an expansion or a correction at double nodes that treats the sign of the normal inconsistently (an absolute value, a normal derivative of only one of the two kernels) shows only on a mesh with the other orientation.", "anchors": ["source/bem_problem.cc:BEMProblem::assemble_system", "source/bem_problem.cc:BEMProblem::compute_alpha", "source/bem_problem.cc:BEMProblem::compute_normals", "source/multipole_expansion.cc:MultipoleExpansion::AddNormDer", "source/bem_fma.cc:BEMFMA::multipole_matr_vect_products", "source/boundary_conditions.cc:BoundaryConditions::prepare_bem_vectors"]}
{"id": "C112", "title": "Convex surfaces", "statement": "Dense method, dimension 3, surface all of whose nodes lie on the inner side of the tangent planes at the quadrature points. All entries of the double layer matrix are negative or zero, and not zero exactly when from the node of the row one sees the node of the column; the entries of the single layer matrix are positive or zero; the computed alpha is positive or zero, and zero only at nodes from which nothing is seen, and alpha plus the diagonal entry is the sum of the absolute values of the other entries. In an exact solution the single layer of the normal derivatives is not negative at the node of largest potential and not positive at the one of smallest potential; two exact solutions with the same normal derivatives differ by a constant; if the normal derivatives of one exact solution are nowhere larger than those of another, they are equal; so a problem with exactly one Dirichlet node has a regular linear system (with hanging nodes too, if they are mean values of Neumann nodes); normal derivatives of one sign are all zero, and then the potential is constant; and a pure Neumann solve with zero residual returns a solution of the boundary integral equation only if the returned potential is constant: in all other cases the equation is violated by one positive constant. The signs of the double layer and of alpha, the statements on the maximum and minimum and the one on equal normal derivatives hold for convex curves in dimension 2 as well.", "quantifier": "all convex meshes, quadratures, boundary conditions and data, partitions, linear solvers", "why_tests_cant": "A test compares errors on one sphere or one cube; that the discrete problem keeps the maximum principle and has no solutions besides constants for zero flux is a statement about all meshes and data.", "anchors": ["source/bem_problem.cc:BEMProblem::assemble_system", "source/bem_problem.cc:BEMProblem::compute_alpha", "source/bem_problem.cc:BEMProblem::vmult", "source/bem_problem.cc:BEMProblem::solve_system", "include/laplace_kernel.h:LaplaceKernel"]}
{"id": "C113", "title": "Symmetric surfaces and symmetric results", "statement": "Dense method, dimensions 2 and 3, surface whose mesh (with its hanging nodes, if any) and quadratures are mapped to themselves by a motion (rotation, reflection, translation). The entries of both matrices at a pair of nodes and at the pair of their images are equal, and so are the coefficients alpha of a node and of its image. If the boundary conditions are even (or odd) for the motion, an exact solve of a regular problem returns a potential and a normal derivative that are even (odd) too, whatever the partition, the numbering of nodes, cells and local dofs and the linear solver; with odd conditions both vanish at the nodes that the motion leaves at their place.", "quantifier": "all symmetric meshes, motions, quadratures, boundary conditions, partitions, linear solvers", "why_tests_cant": "A test looks at one symmetric example, and to a tolerance; that the result inherits every symmetry of the problem, including at edges with several nodes at a position, is a statement about all meshes, motions and data.", "anchors": ["source/bem_problem.cc:BEMProblem::assemble_system", "source/bem_problem.cc:BEMProblem::compute_alpha", "source/bem_problem.cc:BEMProblem::solve_system", "source/bem_problem.cc:BEMProblem::compute_constraints", "include/laplace_kernel.h:LaplaceKernel::kernels"]}
{"id": "C114", "title": "When the linear system has exactly one solution", "statement": "Both methods, dimensions 2 and 3, problems with at least one Dirichlet node, with or without hanging and double nodes. If a solve returns for one set of data it returns for all. Whether the linear system has an exact solution with determined potential and normal derivative does not depend on the data (boundary values, surface gradients), on the partition or on earlier solves, but only on the mesh, on which nodes are Dirichlet nodes and on the normals: it has one for one datum exactly if zero data (which always have the zero solution) have no other, and then it has one for all data. Otherwise every datum that has a solution has infinitely many, along a line. On connected convex surfaces (dense method, dimension 3, quadrature points not at the nodes; conforming meshes, or meshes whose hanging nodes are mean values of Neumann nodes) every problem with exactly one Dirichlet node has exactly one solution.", "quantifier": "all meshes, constraints, boundary data, partitions, histories of solves, linear solvers", "why_tests_cant": "A test solves for one datum; that solvability for it implies solvability for all data, through the constraints at double and hanging nodes whose inhomogeneities depend on the data, is a statement about all data.", "anchors": ["source/bem_problem.cc:BEMProblem::solve_system", "source/bem_problem.cc:BEMProblem::compute_constraints", "source/bem_problem.cc:BEMProblem::vmult", "source/bem_problem.cc:BEMProblem::compute_rhs", "include/constrained_matrix.h:ConstrainedOperator"]}
{"id": "C115", "title": "Balance of the normal derivatives on convex surfaces", "statement": "Dense method, dimension 3, connected convex surfaces, quadrature points not at the nodes. The surface alone (not the boundary data, the kinds of the nodes, the partition or the linear solver) determines positive weights of the nodes, the discrete form of the surface measure in Gauss's law, such that the weighted sum of the normal derivatives of every exact solve (with Dirichlet nodes, boundary data that agree at double nodes and no double nodes with conditions on the gradient) is zero. Conversely given normal derivatives fulfil the boundary integral equation at all nodes with some potential exactly if their weighted sum is zero, and this potential is determined up to a constant. If the equation holds up to eps at every node, the weighted sum is at most eps. If a solve stops at the tolerance of the linear solver, the weighted sum is at most this tolerance (with preconditioners that do not shrink vectors; with double nodes times one plus twice the weighted mean of the absolute row sums of the double layer). So the weighted sum of the normal derivatives returned at the Dirichlet nodes is minus the one of those given at the Neumann nodes, and where these are zero the returned ones are all zero or have both signs. In a problem with one Dirichlet node the normal derivative returned there is minus the weighted sum of the given ones divided by the weight of the node, whatever the given potential. In a pure Neumann solve without residual the weighted sum of the given normal derivatives is not positive, and if it is zero their single layer vanishes at every node. More exactly a pure Neumann problem has an exact solution if and only if the weighted sum of the given normal derivatives is minus the euclidean norm of the difference between their single layer and this sum; so compatible normal derivatives, for which the equation has solutions, have none in the program unless their single layer vanishes. With hanging nodes, whose potential is the mean value of the potential of other nodes, the same holds, with the equation at the nodes that do not hang, weights that depend on the hanging nodes too, and potentials that are interpolated at the hanging nodes, except for pure Neumann problems. In dimension 2 there are weights with the same properties for connected convex curves (conforming meshes, problems with Dirichlet nodes); since the logarithm changes its sign, those of the normal derivatives are only known not to be negative if no quadrature point is further than one from a node. With the fast multipole method the weighted sum of the normal derivatives of an exact solve, with the weights of the surface, is at most the weighted mean of the errors of its products (truncation of the expansions, singular quadratures).", "quantifier": "all connected convex surfaces, element orders and quadrature rules, boundary data, kinds of nodes, partitions, histories of solves, linear solvers", "why_tests_cant": "A test compares one computed flux with one exact one up to the discretisation error; that there are weights for which it is exactly zero for all data of a surface is a statement about all data.", "anchors": ["source/bem_problem.cc:BEMProblem::assemble_system", "source/bem_problem.cc:BEMProblem::compute_alpha", "source/bem_problem.cc:BEMProblem::vmult", "source/bem_problem.cc:BEMProblem::compute_rhs", "source/bem_problem.cc:BEMProblem::solve_system"]}
