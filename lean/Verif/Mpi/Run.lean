import Verif.Mpi.Calls

/-!
# The communication of a run

`Driver::run` (source/driver.cc:80-128) and everything it calls, as far as communication is concerned: the collective operations and
the accesses to elements of distributed objects, with the conditions they depend on. The values of the elements are left out: no
branch that leads to a collective operation reads them, except through the answers of collective operations.
-/

noncomputable section

namespace PiBem.Mpi

/-- The mesh of a cycle with its partition: what the processes own is arbitrary. -/
structure Mesh where
  /-- number of dofs -/
  nDofs : ℕ
  /-- number of active cells -/
  nCells : ℕ
  /-- `subdomain_id` of a cell -/
  sub : ℕ → ℕ
  /-- dofs of a cell -/
  dofs : ℕ → List ℕ
  /-- dofs of a cell of the vector valued problem -/
  vdofs : ℕ → List ℕ
  /-- the material of the cell is in `dirichlet_boundary_ids` -/
  dirichletCell : ℕ → Bool
  /-- the material of the cell is in `neumann_boundary_ids` -/
  neumannCell : ℕ → Bool
  /-- `this_cpu_set` of a process -/
  own : ℕ → List ℕ
  /-- dofs of the vector valued problem with a constraint that a process owns -/
  vlines : ℕ → List ℕ
  /-- `double_nodes_set` -/
  doubles : ℕ → List ℕ
  /-- columns of the constraint of a dof, `none`: not constrained -/
  entries : ℕ → Option (List ℕ)
  /-- columns of a row of `init_prec_sparsity_pattern` -/
  precRow : ℕ → List ℕ
  /-- rows in the order in which the copiers of `direct_integrals` add to them, on a process -/
  nearRows : ℕ → List ℕ
  /-- rows in the order in which the descending phase adds to them, on a process -/
  farRows : ℕ → List ℕ

/-- What a Krylov solver does next. -/
inductive Request
  | operator
  | preconditioner
  | dot

/-- The linear solves of a run. -/
inductive Solve
  | normals | surface | gradients | system

/-- Parameters. The solvers are arbitrary as long as their decisions depend on the answers only (library contract: `SolverGMRES`
decides on norms and inner products, which are the same on all processes). -/
structure Config where
  /-- `solution_method == "Direct"` -/
  direct : Bool
  /-- `dim` -/
  dim : ℕ
  /-- `global_refinement` -/
  globalRefinement : Bool
  /-- `n_cycles` -/
  nCycles : ℕ
  /-- what the solver does after the answers so far; `none`: converged -/
  strategy : Solve → List Val → Option Request
  /-- `solver_control`: the solver gives up after this many operations -/
  limit : ℕ
  /-- contribution of a process to an inner product of a solver -/
  partDot : Solve → ℕ → List Val → Val
  /-- contribution of a process to other reductions and copies -/
  part : Call → ℕ → Val
  /-- `adaptive_refinement` and `update_triangulation` (bem_problem.cc:3020-3037, computational_domain.cc:928-965), from the
  values of the potential -/
  refine : Mesh → Val → Mesh

variable (cfg : Config)

/-! ## Solvers -/

/-- `solver.solve(A, x, rhs, prec)`: the product with `A` is `op`; if the limit is reached the solver throws `NoConvergence`. -/
def gmres (cfg : Config) (which : Solve) (p : ℕ) (op : M Unit) (prec : Obj) : ℕ → List Val → M Unit
  | 0, _ => abort
  | n + 1, h =>
    match cfg.strategy which h with
    | none => pure ()
    | some Request.operator => do
      op
      gmres cfg which p op prec n (h ++ ([fun _ => 0] : List Val))
    | some Request.preconditioner => do
      sync (.precApply prec)
      gmres cfg which p op prec n (h ++ ([fun _ => 0] : List Val))
    | some Request.dot => do
      let r ← call .dot (cfg.partDot which p h)
      gmres cfg which p op prec n (h ++ [r])

/-- `vector_constraints.distribute(x)`. Library contract: the entries the constraints need are copied, the constrained entries a
process owns are written, `x` is compressed. -/
def distribute (g : Mesh) (p : ℕ) (x : Obj) : M Unit := do
  sync (.ghosts x)
  loop (g.vlines p) fun _ => setEl x
  compress x .insert

/-- Assembly and solution with the mass matrix (bem_problem.cc:2289, 2340-2423, 2441-2445, 2490-2569, 2917-3017): the processes treat
their cells, `distribute_local_to_global` adds to the matrix and to the right hand side. -/
def massSolve (g : Mesh) (p : ℕ) (which : Solve) (x rhs mat : Obj) : M Unit := do
  reinit rhs
  reinit mat
  loop (List.range g.nCells) fun c =>
    if g.sub c = p then
      loop (g.vdofs c) fun _ => do
        loop (g.vdofs c) fun _ => addEl mat
        addEl rhs
    else pure ()
  compress mat .add
  compress rhs .add
  sync (.prec mat)
  gmres cfg which p (sync (.product mat)) mat cfg.limit []
  distribute g p x

/-! ## `BEMProblem` -/

/-- `dirichlet_nodes(i)` on process `p` (bem_problem.cc:591-617, 658-663). -/
def flag (g : Mesh) (p i : ℕ) : Bool :=
  (List.range g.nCells).any fun c => g.sub c == p && g.dirichletCell c && (g.dofs c).contains i

/-- `vector_shift` (bem_problem.cc:36-43, boundary_conditions.cc:24-31). -/
def vectorShift (g : Mesh) (p : ℕ) (o : Obj) : M Unit := loop (g.own p) fun _ => addEl o

/-- `compute_dirichlet_and_neumann_dofs_vectors` (bem_problem.cc:573-683). -/
def computeDirichlet (g : Mesh) (p : ℕ) : M Unit := do
  let v ← getVars
  setVars { v with haveDirichlet := false }
  let helper : ℝ := if (List.range g.nCells).any fun c => g.sub c == p && g.dirichletCell c then 1 else 0
  loop (List.range g.nDofs) fun i =>
    if i ∈ g.own p then do
      setEl .dirichletNodes
      setEl .neumannNodes
    else pure ()
  let r ← call .allreduceMax fun _ => helper
  onlyIf (r 0 > 0) do
    let v ← getVars
    setVars { v with haveDirichlet := true }

/-- `BEMProblem::reinit` (bem_problem.cc:152-418) with `init_fma` (bem_fma.cc:47-72). -/
def bemReinit (g : Mesh) (p : ℕ) : M Unit := do
  sync .barrier
  loop [.systemRhs, .sol, .alpha, .servPhi, .servDphi, .servTmp] reinit
  onlyIf cfg.direct do
    sync (.pattern 0)
    sync (.pattern 1)
    loop [.neumann, .dirichlet] reinit
  sync (.pattern 2)
  let v ← getVars
  setVars { v with bandInit := false }
  loop [.dirichletNodes, .neumannNodes] reinit
  computeDirichlet g p
  sync (.localize .dirichletNodes)
  sync (.pattern 3)
  sync (.pattern 4)
  sync (.pattern 5)
  reinit .hypAlpha
  loop (List.range (cfg.dim * cfg.dim)) fun k => reinit (.cij k)
  loop (List.range cfg.dim) fun d => reinit (.b d)

/-- `compute_normals` (bem_problem.cc:2912-3018). -/
def computeNormals (g : Mesh) (p : ℕ) : M Unit := do
  reinit .normals
  massSolve cfg g p .normals .normals .normalsRhs .normalsMat

/-- `compute_surface_gradients` (bem_problem.cc:2425-2572). -/
def computeSurfaceGradients (g : Mesh) (p : ℕ) : M Unit := do
  sync (.ghosts .tmpRhs)
  reinit .surfGrads
  massSolve cfg g p .surface .surfGrads .surfRhs .surfMat

/-- `compute_gradients` (bem_problem.cc:2260-2424). -/
def computeGradients (g : Mesh) (p : ℕ) : M Unit := do
  sync (.ghosts .phi)
  sync (.ghosts .dphi)
  reinit .grads
  massSolve cfg g p .gradients .grads .gradsRhs .gradsMat

/-- `assemble_system` (bem_problem.cc:751-1180): both matrices are set to zero (757-760) and the rows of the process added to. -/
def assembleSystem (g : Mesh) (p : ℕ) : M Unit := do
  loop [.neumann, .dirichlet] reinit
  loop (List.range g.nCells) fun c =>
    loop (List.range g.nDofs) fun i =>
      if i ∈ g.own p then
        loop (g.dofs c) fun _ => do
          addEl .neumann
          addEl .dirichlet
      else pure ()

/-- `direct_integrals` (bem_fma.cc:140-1310): the sparsity pattern (227, 669), the three matrices (677-679), and the copiers
(1050-1080), which add to rows of the process. -/
def directIntegrals (g : Mesh) (p : ℕ) : M Unit := do
  sync (.pattern 6)
  sync (.pattern 7)
  loop [.precNeumann, .precDirichlet, .initPrec] reinit
  loop (g.nearRows p) fun _ => do
    addEl .precNeumann
    addEl .precDirichlet
    addEl .initPrec

/-- `generate_multipole_expansions` and `multipole_matr_vect_products` (bem_fma.cc:2141-2142, 2589-2590, 2700-3270): the values are
copied to every process, the near field is a product with the sparse matrices, the far field is added element by element. -/
def fmaProduct (g : Mesh) (p : ℕ) (x y px py : Obj) : M Unit := do
  sync (.localize x)
  sync (.localize y)
  sync (.product .precNeumann)
  sync (.product .precDirichlet)
  loop (g.farRows p) fun _ => do
    addEl py
    addEl px

/-- `AssertThrow(dim == 3, ...)`. -/
def needs3d : M Unit := if cfg.dim = 3 then pure () else abort

/-- `compute_alpha` (bem_problem.cc:1556-1588). -/
def computeAlpha (g : Mesh) (p : ℕ) : M Unit := do
  let v ← getVars
  onlyIf (v.onesSize ≠ g.nDofs) do
    reinit .ones
    setVars { v with onesSize := g.nDofs }
    vectorShift g p .ones
    reinit .zeros
    reinit .dummy
  either cfg.direct (sync (.product .neumann)) do
    needs3d cfg
    fmaProduct g p .ones .zeros .alpha .dummy

/-- `compute_hypersingular_free_coeffs` (bem_problem.cc:1248-1554). The norms are arguments of `pcout` and evaluated on every
process (1481-1482). -/
def computeFreeCoeffs (g : Mesh) (p : ℕ) : M Unit := do
  loop (List.range g.nDofs) fun i =>
    if i ∈ g.own p then do
      setEl .hypAlpha
      loop (List.range (cfg.dim * cfg.dim)) fun k => setEl (.cij k)
    else pure ()
  assign .error
  let _ ← call (.norm .error) (cfg.part (.norm .error) p)
  let _ ← call (.norm .error) (cfg.part (.norm .error) p)
  let _ ← call (.norm .alpha) (cfg.part (.norm .alpha) p)
  loop (List.range g.nCells) fun c =>
    loop (g.dofs c) fun i =>
      if i ∈ g.own p then
        loop (g.doubles i) fun _ =>
          loop (List.range cfg.dim) fun d => addEl (.b d)
      else pure ()
  loop (List.range cfg.dim) fun d => compress (.b d) .add

/-- `vmult` (bem_problem.cc:1589-1646). -/
def vmult (g : Mesh) (p : ℕ) : M Unit := do
  assign .servPhi
  let v ← getVars
  onlyIf (!v.haveDirichlet) do
    let _ ← call (.norm .servPhi) (cfg.part (.norm .servPhi) p)
    vectorShift g p .servPhi
  assign .servDphi
  reinit .prodN
  reinit .prodD
  either cfg.direct (do
    sync (.product .dirichlet)
    sync (.product .neumann)) do
    needs3d cfg
    fmaProduct g p .servPhi .servDphi .prodN .prodD
  onlyIf (!v.haveDirichlet) do
    let _ ← call (.norm .krylov) (cfg.part (.norm .krylov) p)
    vectorShift g p .krylov
  compress .krylov .add

/-- `ConstrainedOperator::vmult` (constrained_matrix.h:97-131). -/
def constrainedVmult (g : Mesh) (p : ℕ) : M Unit := do
  sync (.ghosts .krylov)
  vmult cfg g p
  loop (List.range g.nDofs) fun i =>
    if (g.entries i).isSome ∧ i ∈ g.own p then do
      addEl .krylov
      loop ((g.entries i).getD []) fun _ => addEl .krylov
    else addEl .krylov
  compress .krylov .add

/-- `compute_rhs` (bem_problem.cc:1649-1694). -/
def computeRhs (g : Mesh) (p : ℕ) : M Unit := do
  assign .servPhi
  assign .servDphi
  reinit .rhsProdN
  reinit .rhsProdD
  either cfg.direct (do
    sync (.product .neumann)
    sync (.product .dirichlet)) do
    needs3d cfg
    fmaProduct g p .servPhi .servDphi .rhsProdN .rhsProdD

/-- `compute_constraints` (bem_problem.cc:1862-2160); the rest of the function works on the copies. -/
def computeConstraints (g : Mesh) (p : ℕ) : M Unit := do
  computeSurfaceGradients cfg g p
  sync (.localize .surfGrads)
  sync (.localize .normals)
  sync (.localize .dirichletNodes)
  sync (.localize .tmpRhs)

/-- `distribute_rhs` and `compress` (constrained_matrix.h:134-145, bem_problem.cc:1732-1733). -/
def distributeRhs (g : Mesh) (p : ℕ) : M Unit := do
  loop (g.own p) fun _ => setEl .systemRhs
  compress .systemRhs .insert

/-- `assemble_preconditioner` (bem_problem.cc:2161-2246). -/
def assemblePreconditioner (g : Mesh) (p : ℕ) : M Unit := do
  let v ← getVars
  either (!v.bandInit) (do
    sync (.pattern 8)
    reinit .band
    setVars { v with bandInit := true }) (reinit .band)
  loop (List.range g.nDofs) fun i =>
    if i ∈ g.own p then do
      onlyIf (g.entries i).isSome (addEl .band)
      loop (List.range' (i - 50) (min (i + 50) g.nDofs - (i - 50))) fun j =>
        if (g.entries i).isNone then do
          if flag g p i then addEl .band
          else do
            addEl .band
            onlyIf (i = j) (addEl .band)
        else pure ()
    else pure ()
  sync (.prec .band)

/-- `FMA_preconditioner` (bem_fma.cc:3289-3650). The loops on the dofs run in several threads; here in one. -/
def fmaPreconditioner (g : Mesh) (p : ℕ) : M Unit := do
  sync (.pattern 9)
  sync (.pattern 10)
  reinit .finalPrec
  loop (List.range g.nDofs) fun i =>
    if i ∈ g.own p then
      match g.entries i with
      | some e => do
        setEl .finalPrec
        loop e fun _ => setEl .finalPrec
      | none => loop (g.precRow i) fun _ => setEl .finalPrec
    else pure ()
  compress .finalPrec .insert
  loop (List.range g.nDofs) fun i =>
    if i ∈ g.own p then addEl .finalPrec else pure ()
  compress .finalPrec .add
  compress .finalPrec .insert
  sync (.prec .finalPrec)

/-- The end of `solve_system` (bem_problem.cc:1789-1809). `nth_index_in_set(0)` fails if the process owns nothing. -/
def storeSolution (g : Mesh) (p : ℕ) : M Unit := do
  loop (List.range g.nDofs) fun i =>
    if i ∈ g.own p then
      if flag g p i then setEl .dphi else setEl .phi
    else pure ()
  onlyIf (g.own p = []) abort
  setEl .phi
  setEl .dphi
  compress .phi .insert
  compress .dphi .insert

/-- `solve_system` (bem_problem.cc:1700-1830). The solver takes its vectors from a pool: a vector it multiplies is fresh. -/
def solveSystem (g : Mesh) (p : ℕ) : M Unit := do
  computeAlpha cfg g p
  computeFreeCoeffs cfg g p
  computeRhs cfg g p
  computeConstraints cfg g p
  distributeRhs g p
  reinit .krylov
  either cfg.direct (do
    assemblePreconditioner g p
    gmres cfg .system p (constrainedVmult cfg g p) .band cfg.limit []) do
    needs3d cfg
    fmaPreconditioner g p
    gmres cfg .system p (constrainedVmult cfg g p) .finalPrec cfg.limit []
  storeSolution g p

/-- `BEMProblem::solve` (bem_problem.cc:1836-1860); octree and multipole integrals do not communicate. -/
def bemSolve (g : Mesh) (p : ℕ) : M Unit := do
  either cfg.direct (assembleSystem g p) do
    needs3d cfg
    directIntegrals g p
  solveSystem cfg g p

/-! ## `BoundaryConditions` and `Driver` -/

/-- `prepare_bem_vectors` (boundary_conditions.cc:219-345). -/
def prepareVectors (g : Mesh) (p : ℕ) : M Unit := do
  reinit .phi
  reinit .dphi
  loop (List.range g.nCells) fun c =>
    loop (g.dofs c) fun i =>
      if i ∈ g.own p then
        if g.dirichletCell c then do
          setEl .phi
          setEl .tmpRhs
        else if g.neumannCell c then do
          setEl .tmpRhs
          setEl .dphi
        else do
          setEl .tmpRhs
          setEl .dphi
      else pure ()

/-- `solve_problem` (boundary_conditions.cc:159-201). -/
def solveProblem (g : Mesh) (p : ℕ) : M Unit := do
  loop [.phi, .dphi, .tmpRhs] reinit
  computeNormals cfg g p
  prepareVectors g p
  bemSolve cfg g p
  let v ← getVars
  onlyIf (!v.haveDirichlet) do
    onlyIf (p = 0 ∧ g.own p = []) abort
    let _ ← call .bcast (cfg.part .bcast p)
    vectorShift g p .phi

/-- `compute_errors` (boundary_conditions.cc:347-541): after the copies only process 0 goes on, without communication. -/
def computeErrors (g : Mesh) (p : ℕ) : M Unit := do
  computeGradients cfg g p
  loop [.grads, .phi, .dphi, .normals] fun o => sync (.localize o)

/-- `output_results` (boundary_conditions.cc:543-622). -/
def outputResults : M Unit :=
  loop [.phi, .dphi, .alpha, .grads, .surfGrads, .normals] fun o => sync (.localize o)

/-- The cycles of `Driver::run` (driver.cc:103-118) from mesh `g`, `k` refinements to go; the result is the last mesh. -/
def cycles (p : ℕ) : ℕ → Mesh → M Mesh
  | 0, g => do
    bemReinit cfg g p
    solveProblem cfg g p
    pure g
  | k + 1, g => do
    bemReinit cfg g p
    solveProblem cfg g p
    let r ← call (.localize .phi) (cfg.part (.localize .phi) p)
    cycles p k (cfg.refine g r)

/-- `Driver::run` (driver.cc:80-128) on process `p`, from the mesh after `read_domain` and `refine_and_resize`, which do not
communicate. -/
def run (g : Mesh) (p : ℕ) : M Unit := do
  let last ← cycles cfg p (if cfg.globalRefinement then 0 else cfg.nCycles) g
  computeErrors cfg last p
  outputResults
  sync .summary

/-- A process before the start of `run`: nothing has been accessed, the static vector is empty. -/
def initial : St := ⟨fun _ => .zero, ⟨false, 0, false⟩⟩

/-- The program of process `p`. -/
def process (g : Mesh) (p : ℕ) : Prog Call Val (Unit × St) := run cfg g p initial

end PiBem.Mpi
