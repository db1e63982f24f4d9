# Formal model of mathLab/pi-BEM in Lean 4

## Trusted base

* Lean 4.33.0 kernel; Mathlib at the installed revision.
* Axioms: each theorem depends at most on `propext`, `Classical.choice`, `Quot.sound` (audited by `vcheck`). No axiom is
  added, no compiled evaluation is trusted.
* The correspondence between the C++ text in /repo and the Lean definitions. Every model definition cites file and lines and
  says what it simplifies. It is a hand translation, except `Legendre/Table.lean` (the 462 tabulated functions of
  `ass_leg_function.cc`), written by the script `tools/leggen.py`, which is trusted to transcribe expressions.
* The specifications named below. They are small definitions beside the theorems (`Props/*`, `Expansion/Potential.lean`,
  `Legendre/Spec.lean`).
* Arithmetic: `double` is exact (rationals for octree geometry, reals or a commutative ring elsewhere): no rounding (except in C100), NaN or
  infinity. Where the program divides by zero or produces NaN, theorems exclude the case by a hypothesis or speak about the
  division explicitly (C32). `unsigned int` is `ℕ`, except `LocalExpansionCoeff::getIndex`, modulo 2^32 (C17, C18, C20).
* Undefined behaviour is modelled where a property needs it as a distinguished outcome (`none`, "out of storage"): C11, C17,
  C18, C20, C21, C38, C39, C46, C50. Heap aliasing, leaks and double deletes: C19, C48 (explicit heap).
* Libraries are inputs or contracts. deal.II: positions, normals, shape values, `JxW`, subdomains, hanging node constraints
  are arbitrary data; `AffineConstraints` (`distribute`, `distribute_local_to_global`), `integrate_difference`,
  `compute_subdomain_wise`, `Triangulation` refinement by their documented contract. Trilinos: vectors and matrices are
  functions, `compress(add)` sums the contributions. MPI: processes are folds over the owned part followed by `compress`.
  TBB/WorkStream: workers are pure functions, copiers run in an arbitrary order (a permutation, quantified over). GMRES: the
  theorems speak of exact solutions (C22, C25, C26, C67). OpenCASCADE projections: an arbitrary function (C41).
* Dimension: octree, lists, storage, kernels, nodes, constraints, dense assembly and solve (C86), recovered gradients and
  driver for both dimensions (or generic); expansions, free coefficients for dimension 3. The two-dimensional fast multipole method does not exist in
  the program (the functions say "not implemented").

## Layout (lean/Verif)

| Directory | Content | Source |
|---|---|---|
| `Octree/` | construction of the tree, lists, block class; invariants | bem_fma.cc, octree_block.* |
| `Fmm/Model` .. `Upward` | the product with symbolic contributions, all schedules | bem_fma.cc |
| `Fmm/Numeric*`, `Fmm/Linear*` | the product with numbers; simulation; linearity | bem_fma.cc |
| `WorkStream.lean` | workers and copiers | deal.II contract |
| `Expansion/` | coefficient storage, heap of copies, operations, table look-ups; `Potential`: specification | multipole_expansion.cc, local_expansion*.cc |
| `Harmonic/` | mathematics of solid harmonics used by C57-C63 (no program text) | |
| `Legendre/` | table of Legendre functions, checked symbolically in the kernel | ass_leg_function.* |
| `Kernel/` | Laplace kernels, polar subdivision, hypersingular integrator | laplace_kernel.h, singular_kernel_integral.* |
| `Bem/` | operator, nodes, constraints, boundary data, assembly, free coefficients, gradients | bem_problem.cc, boundary_conditions.cc, constrained_matrix.h |
| `App/` | driver, mapping, domain, CAD cache, error report | driver.cc, computational_domain.cc, my_utilities.*, boundary_conditions.cc |
| `Props/` | the property theorems, each followed by an example meeting its hypotheses | |

`seeded/LOG.jsonl`: wrong programs tried against the theorems (`tools/mut.py`). `tools/prop.py`, `tools/mkman.py`: maintain
`properties.jsonl` and `MANIFEST.json`.

## Plan and outcome per property

"Refuted" means: the natural expectation is false of the program; the property states what is true, and the manifest lists the
theorem with the concrete input that breaks the expectation.

Octree and lists
* C01 leaves partition nodes and points; C02 links, levels, id ranges; C03 capacity; C04 point-to-block map: `generate_octree_blocking`
  as folds over levels, parents, octants; one invariant preserved by every step (`Octree/Inv`, `Level`, `Tree`).
* C05 dof-to-block map: exact content; the expected one entry per level refuted. C11 size of the block table: exact condition
  of overflow, sufficient condition, refuted in general.
* C07, C08, C13: rational geometry of dyadic boxes over the invariants. C12: the interaction lists split the refined parent list.
* C48: copies of blocks, explicit storage.

Fast multipole product
* C06 every interaction once, C09 singular cells near, C10 upward pass, C14 partition, C15 buffers, C49 moments: the three
  phases of the product as folds with contributions in a commutative monoid, for every order of the copiers.
* C63 error bound of the product with numbers: simulation of numeric executions by symbolic ones plus C57-C62. C65 the product
  is one fixed matrix, the same for all schedules; linear. C64 dense matrices and their difference from the product.

Expansions
* C16-C18 storage; C19 copies (heap); C20 orders and table bounds, with the lists of accesses tied to the operations (`Props/Footprint`: results with two sets of tables that agree on the list are equal); C21 the zero flag.
* C57 content of an expansion after any history, C58 dipoles, C59 translation exact, C60 evaluation error, C61 local translation,
  C62 conversion error: coefficients identified with solid harmonic moments (`Harmonic/`), explicit truncation bounds.
* C44 all 462 tabulated functions equal the associated Legendre functions and their derivatives: symbolic checker proved sound,
  run in the kernel.

Linear system
* C22-C24, C34 constrained operators (transpose only under a condition, refuted otherwise). C25 the system encodes the boundary
  integral equation; C26 prescribed data kept; C27 alpha; C28 action without Dirichlet boundary; C33, C53 band preconditioner;
  C51 cached constants; C52 old content of the right hand side.
* C29 classification; C30 double nodes; C31, C32, C54 constraints at edges; C35 reordering vectors.
* C36, C37 boundary data and final shift. C66 free coefficients. C67 recovered gradients and normals are L2 projections (any dimension `d`).
  C68 hypersingular gradients.

Geometry, integration, application
* C38 spheroid mapping (refuted), C39 cached singular quadratures, C40 driver, C41 CAD cache (refuted), C45-C47, C50 domain.
* C42 kernels (one function refuted), C43 polar subdivision, C55, C56 hypersingular integrator. C69 error report. C70 free term `b` of a cell (`Kernel/FreeTermB`), factor refuted.
* C72 index sets of the processes (`Bem/Ownership`): membership by induction on the loop, then C35.
* C73 repeated octree generation (`Octree/History`): the old content of `dof_to_elems` is a field of the octree input,
  so all octree and FMA theorems hold for any history; lists compared with those of a new object, witness of a difference.
* C74 singular integrator as a whole (`Kernel/SingularIntegral`): the face, angle and radius loops of both integrators; with exact rules the
  result is the Hadamard finite part over the cell minus a shrinking physical neighbourhood (polar coordinates on each face, Fubini, ray estimate uniform in the angle).
* C75 hanging nodes (`Bem/Hanging`): `merge` and `close` of deal.II as algorithms on lines, invariant "the set of solutions of the lines does not change"; termination by a rank.
  C76 constants and superposition: the constant vector checked line by line and row by row.
* C77 `solve` end to end (`Bem/Solve`): composition of the models of assembly, fast multipole product, `alpha`, right hand side, constraints; GMRES an
  arbitrary function whose residual enters the bounds; C63/C64 give the error of the products.
* C78 edges between Dirichlet faces (`Bem/Edges`): the weak form of C67 tested with the error restricted to a face; C31 and C54 for the constraints.
* C79 pure Neumann solves (`Props/SolveNeumann`): rows of C77 with the action of C28; geometry of vectors `z - |z|`.
* C80 conformity along a doubled edge (`App/TwoSides`, `Props/TwoSides`): the pass of C18 (`App/Domain`) on the cells along the two sides; characterised by a
  recursion on the trees of bisections (`step`), with the number of leaves of the common refinement as measure.
* C81 cycles of a run (`Bem/Cycles`, `Props/Cycles`): `cycle` puts together the mapping part of `reinit` (C38), the octree input with unreset cell lists (C46), the
  cached singular rules and `solve` (C77) with its statics; induction on the cycles gives the state after any history.
* C82 coincident nodes (`Props/Coincident`, model `Bem/Solve`, `Fmm/Operator`): block membership depends on the position only (induction over the octree), so every part
  of the row of the fast multipole matrix does; with the constraint lines of C75 this gives the equation at every node, and rank considerations give (c).
* C83 renumbering (`Octree/Renumber`, `Props/Renumber`): the octree of a renumbered problem is the same tree with renumbered nodes (simulation, by induction over the
  construction), so every part of every row is; with C82 the exact results correspond. The corner exception is a model of three Dirichlet nodes at one point.
* C84 curvature refinement (`App/Curvature`, `Props/Curvature`): the estimated normal (polynomial identities on the vertices, cofactors of a rotation), the target size as an
  inequality, the loop by the invariant of C45. The CAD library is an arbitrary function of surface, point and direction.
* C85 rigid motions and unit of length (`Props/Similar`, `Props/SimilarGrad`): the kernels under `x ↦ s·Qx + b`, then every entry of the dense matrices; results by the
  characterisation of exact results (C82); projections by uniqueness (C67).
* C86 the plane problem (`Bem/Plane`, `Props/Plane`; also `Props/Motion` for C85): dense assembly and solve in dimension 2; the part of `solve` after the assembly is
  `solveWith`, shared with dimension 3. Entries by folding the assembly loops, the rest from `solveWith_rows` and the kernels under similarities. Free coefficients in dimension 2: not in this property.
* C87 free coefficients in dimension 2 (`Bem/PlaneFree`, `Props/PlaneFree`): the lists of normals, the integer quotient, the unthrown exception as written; specification by integrals on
  the directions inside a corner, evaluated with the fundamental theorem of calculus. The hypersingular gradients in dimension 2 index a third component: not modelled.
* C88 small domains (`Props/SmallDomain`): same model as C63; the blocks are in the root cube, so the neighbour test with the absolute tolerance holds for all pairs and the non
  interaction lists are empty; simulation of the downward pass by a run where all expansions stay zero.
* C89 recovered fields under renumbering (`Props/RenumberGrad`): same models as C35, C67, C83; the renumbered mesh has the same projections (uniqueness of C67), the positions correspond
  (C35), so that the hypotheses of C83 about normals and surface gradients are proved instead of assumed.
* C90 processes (`Bem/Processes`, `Props/Processes`): association of dofs with subdomains, ghost sets, reads of missing entries as `none`, the last lines of `solve_system` with the access to the
  first owned index; induction over the loops, pigeonhole.
* C91 exact solves (`Props/Exact`): `solveWith` for arbitrary matrices with equal rows at double nodes, hanging nodes allowed; C75 for the constraints; instances: both methods in dimension 3 (C82, C83),
  dense method in dimension 2 (C86).
* C92 corners (`Props/Corner`): same model; the partner of a Dirichlet node at a corner (C31/C75), error of the two-by-two solve of C54 by Cauchy-Schwarz.
* C93 number of cycles (`App/Cycles32`, `Props/Cycles32`): the loop of the driver with 32 bit counters as an inductive relation (complete and incomplete executions), the conversion of the parameter; induction.
* C94 tolerance of the linear solver (`Props/Tolerance`): `solveWith` with the stopping test and the initial guess of GMRES as hypotheses; the right hand side is proportional to the data (values of the constraint lines determined through C75).
* C95 local refinement (`Bem/Adaptive`, `Props/Adaptive`): the loop of the driver on a machine with one copy of the mesh per process and distributed vectors; invariant "all copies equal", C81 for the state kept between cycles, C91 for different numbers of processes. Estimator, marking, refinement and edge conformity are arbitrary functions of their arguments.
* C96 pending additions (`Fmm/Pending`, `Props/Pending`): vectors with one number per process and index (value at the owner, pending addition elsewhere); `vmult`, `compute_rhs`, `compute_alpha` over the executions of C63/C65 on every process; refinement of the model without processes, and by induction on the solves for `alpha`.
* C97 parameters of the octree and the expansions (`Fmm/Params`, `Props/FmaParams`): conversion of the accepted integers, sizes of the tables in 32 bit arithmetic; the leaf capacity rule (C03) bounds the depth of the tree by one, then as C88.
* C98 threads at the level of single memory accesses (`Threads`, `Fmm/Threads*`, `Props/Threads`): a thread is a tree of reads and writes of typed shared locations; `WorkStream::run` and `tbb::parallel_for` interleave them arbitrarily. Proof: every worker, copier and loop body respects a discipline (locations it only reads, locations it owns, locations overwritten with their own value), under which any interleaving is equivalent to one with indivisible calls (commutation of steps, `CRun.exec`, `ParRun.result`); then refinement to the executions of C06/C63/C65. Sequential consistency is assumed: for the three raced locations the C++ memory model gives no guarantee.
* C99 aspect ratio loop on flat cells (`App/Aspect`, `Props/Aspect`): cells evolve independently (`loop_eq`); induction on the number of halvings.
* C100 rounding (`Rounding`, `Fmm/Rounding`, `Props/Rounding`): standard model with an abstract rounding function of relative error u; `Near` (value, sum of absolute values, number of operations) composes over additions, multiplications and loops; a run of the assembly is paired with the ledger of contributions of C06 in the order of the schedule (`exec_order`).
* C101 collective operations (`Mpi/Spmd`, `Mpi/Sync`, `Mpi/Calls`, `Mpi/Run`, `Mpi/Rules`, `Props/Collectives`): a process is a program (an interaction tree) of collective calls; the processes arrive at their calls in any order and a call completes when all of them wait in it. `Mpi/Run` follows `Driver::run` call by call, with the accesses to elements of the distributed objects. Library contracts: a Trilinos object assembles itself, collectively, when an access of the other kind follows (insert / add), `compress` in a mode that does not match is an error; the Krylov solvers decide on answers of collective operations only; `AffineConstraints::distribute` is one exchange, writes to the constrained entries the process owns and one compress. A reduction gives the same answer on all processes. The values of the vectors are left out. Proof: relational Hoare rules with the abstract state of the objects (no access, insertions, additions, any); the loops over owned dofs have different lengths on different processes and must therefore contain no collective operation, which is what the discipline of accesses shows. The element access to the first owned dof of a process without dofs is a failure (checked build; undefined behaviour otherwise).
* C102 orders of the elements (`Bem/Elements`, `Props/Elements`): the nodes of continuous elements of order `k` (vertices, inner nodes of lines and of cells) and their numbers by first visit, the library contract of `distribute_dofs`; `component_wise` numbers the components of the vectors one after the other. Proof: the first cell takes `(k+1)^dm` numbers, the next number is the first new vertex; the number of nodes is the cardinality of the set of nodes and grows with `k`. Elements of type FEDGQ are not considered; orders at least 1.
* C66 corners (`Props/FreeCorner`, `Props/FreeWedge`, `Props/FreeCornerOrder`): fraction and tensor are defined with Lebesgue measure on the unit ball. Wedges by cylindrical coordinates in an orthonormal frame; a corner with three faces from its wedges by reflection at the origin and inclusion-exclusion; more faces by induction (a new plane cuts off a corner with three faces); the loop of the program finds the faces in order (a face seen from the average normal inside the sector of two consecutive ones would be no face of the corner).
* C103 output files (`App/Files`, `Props/Files`): a file system shared by `P` processes; each process executes open (truncate), put, flush, close in the order of the code, and at any time a part of a buffer may reach the file at the position of the stream. Invariants for one path: the remaining program of every process and its stream are in a phase of the program; after the last truncation of all, the process that did it has its written part right, and the others only write right bytes. Contents are abstract functions of the mesh.
* C104, C105 set up of the domain (`App/Setup`, `Props/Setup`): the lists of ids as strings, read by models of `split_string_list` and `istringstream`, composed with the classification of nodes (C29) and the boundary data (C36); the loop over CAD files as an inductive relation over an arbitrary directory; the manifold of each object after `read_domain` and the attachment of the projectors.
* C106 parameter file (`App/Params`, `App/ParamsSpec`, `Props/Params`): the sequences of `enter_subsection`, `declare_entry`, `set`, `get` of the five classes executed on a model of `ParameterHandler`; a file is an arbitrary list of lines. The specification is two explicit tables (entries, members). Induction on the file; the finite tables are compared with the result of the declarations by evaluation in the kernel.
* C80 on whole meshes (`App/ManyEdges`): a pass of the loop as a relation over all doubled edges at once: cells flagged by any edge are refined together and the library may refine more. Termination by the total of the missing bisections under the bound, conformity as an invariant of the passes.
* C107 cost of the product (`Octree/Near`, `Fmm/Cost`, `Props/Cost`): integer coordinates of the boxes in the grid of their level; the blocks of a list of one level inject into the 3^d or 6^d-3^d neighbouring boxes, leaves of different levels into the boxes they cover; evaluations and direct pairs are counted from the smaller of the two blocks (double counting). The number of blocks comes from C11.
* C108 unit of length in the fast multipole method (`Octree/Scale`, `Fmm/Scale`, `Fmm/ScaleRun`, `Props/Units`): `build` commutes with the scaling of coordinates (structural induction over the levels); all corners lie on the grid of the finest boxes, so the neighbour tests reduce to signs of integers in any unit whose grid is coarser than the tolerance; every operation on expansions commutes with the scaling of coefficient `(n,m)` by a power of `f`, and so do the ascending and descending phases. Results: the argument of C85 with the relation between the matrices as hypothesis.
* C109 surfaces far from the origin (`Props/Displaced`): every block holds a point and lies on the grid of its level; blocks that are not near neighbours are one side apart (the completeness of the lists, C13), so they hold points one side apart. Product: the argument of C88.
* C110 exit status (`Props/Exit`): the steps have the diamond property, so final states are unique; failure of a solve is carried through the program with the rules of C101.
* C111 orientation (`Props/Reverse`): the double layer kernel and the moments of the normal derivative are odd in the normal, everything after is linear; results by the similarity argument of C85 with `Q = -1`, ratio `-1`.
* C112 convex surfaces (`Props/Convex`, dimension 2: `Props/ConvexPlane`): `ConvexSurface` is a condition on the quadrature points used; signs of the kernels; at a node of largest potential all terms of the double layer of the differences have one sign; induction along the nodes seen one from another.
* C113 symmetric surfaces (`Props/Symmetric`): permutations of nodes, cells and local dofs induced by an orthogonal motion; the sums over cells and local dofs are reindexed; the signed image of an exact solution is exact, and the problem has only one.
* C114 solvability (`Props/Solvable`): the entries of the constraints do not depend on the data (loop invariants of `compute_constraints`, `merge`, `close`), so all data share one linear operator; injective iff surjective.
* C85, C111 with hanging nodes (`Props/UnitsHanging`): C91 characterizes exact results; the interpolation of the unknowns scales unless it mixes the kinds of nodes; two-node problem as counterexample.
* C101, C110 with arbitrary meshes in later cycles (`Props/ExitCycles`): the rules of C101 followed along the answers the processes actually get, so the mesh of each cycle is known.
* C94, C114 for all data (`Props/AnyData`): exceptions of a solve come from constraints and partition, which do not depend on the data.
* C115 balance (`Props/Balance`): the double layer matrix minus its row sums is a connected M-matrix of differences; its left kernel is spanned by one positive vector (existence by dimension, positivity and uniqueness by the maximum principle of the transpose).
* C115 with hanging nodes (`Props/BalanceHanging`): the rows of the hanging nodes are replaced by minus the weights of the interpolation, which gives again a connected M-matrix of differences.
* C115 with the tolerance of the linear solver, conservation, pure Neumann problems, dimension 2 (`Props/BalanceTolerance`, `Props/BalancePlane`): the weighted sum of the rows of the residual.
* C71 sparsity patterns (`Fmm/Pattern`): each worker/copier as a set of positions; every schedule ends in the same set, compared with the positions written by the assembly and with the collection of integrals of the row.

## What is not modelled

* The parser of parameter files and the writers of files themselves (libraries); what the program does with declared and read parameters is C103, what it writes is C69 and C106, the order of cycles C40. Timers; console messages.
* `time_integrator.h` (needs GSL; no executable uses it) and the accessors of `bem_problem_access.h`.
* GMRES, AMG, ILU: convergence and failure. `solve_system` uses their result.
* Discretisation error of the boundary element method; rounding errors of the expansions and of the evaluation of kernels (C100 covers assembly and products).
* Mesh generation and input files; geometry of refinement (an arbitrary function of the triangulation).
* `compute_geometry_cache` (edge tables not read by the solver), `adaptive_refinement` (a call of deal.II).
* The two-dimensional branches of the hypersingular code and of the free coefficients (division of integers, index 2 of a
  two-dimensional tensor).
