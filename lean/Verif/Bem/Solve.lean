import Verif.Bem.Hanging
import Verif.Props.Nodes
import Verif.Props.Linear

/-!
# `BEMProblem::solve`

`BEMProblem::solve` and `solve_system` (bem_problem.cc:1701-1860) as a whole, dimension 3: matrices or fast multipole operator,
`alpha`, right hand side, constraints, linear solver, storage of the solution. The parts are the ones of the other
modules. GMRES with its preconditioner is an arbitrary function of the operator and of the right hand side.
-/

noncomputable section

namespace PiBem.Bem

open PiBem.Octree PiBem.Fmm PiBem.Expansion

/-- The matrices the operator of the solver multiplies with. `Direct`: `assemble_system` (bem_problem.cc:1837-1840), each row
assembled by the process owning it. Otherwise: the matrix of the fast multipole product (bem_problem.cc:1845-1851), which is by C65 what all
executions of `generate_multipole_expansions` and `multipole_matr_vect_products` multiply with. `S`, `S'`: singular quadratures
of the fast multipole (`bem_fma.cc`) and of the dense method. -/
def solveMatrix (inp : Input 3) (D : Data) (S S' : SingRule) (m : Method) (owner : ℕ → ℕ) (ker : Ker) : Mat inp.nDofs :=
  fun i k => match m with
    | .direct => assemble inp D S' ker (fun r => decide (owner r = owner i)) i k
    | .fma => fmaMatrix inp (withSing inp D S ker) ker i k

/-- What is known to a call of `solve` besides the mesh: boundary conditions, normals and surface gradients at the nodes,
sets of double nodes, hanging nodes, partition. -/
structure Setup (n d : ℕ) where
  method : Method
  owner : ℕ → ℕ
  procs : ℕ
  part : ℕ
  neumannNodes : Vec n
  haveDirichletBc : Bool
  /-- its field `dirichlet` is `dirichlet_nodes` -/
  nodes : NodeData n d
  doubles : Fin n → Finset (Fin n)
  hanging : Hanging n
  fuel : ℕ
  order : List (Fin n)

/-- Result of `solve`; `sol` is the vector returned by the linear solver and `residual` the residual with which it stopped
(not stored by the program, used to state the theorems). -/
structure Solution (n : ℕ) where
  phi : Vec n
  dphi : Vec n
  sol : Vec n
  residual : Vec n

/-- `BEMProblem::solve` (bem_problem.cc:1833-1860) and `solve_system` (bem_problem.cc:1701-1810) once the two matrices `N` (`neumann_matrix`) and `M`
(`dirichlet_matrix`), or the operators used in their place, are there; the static vectors of
`compute_alpha` are in state `st`; `phi0`, `dphi0` are the vectors passed by the caller. `none`: an exception (incompatible
partitions in `compute_alpha`, conflicting constraints). `gmres` is the linear solver. `compute_hypersingular_free_coeffs`
(line 1717) does not write what is used here. Any dimension. -/
def solveWith {n d : ℕ} (N M : Mat n) (C : Setup n d) (gmres : (Vec n → Vec n) → Vec n → Vec n) (st : AlphaStatics)
    (phi0 dphi0 : Vec n) : AlphaStatics × Option (Solution n) :=
  let a := computeAlpha C.method C.part N (fun _ => 0) st
  (a.1, a.2.bind fun alpha =>
    let P : Problem n := ⟨N, M, alpha, C.nodes.dirichlet, C.neumannNodes, C.haveDirichletBc, C.method⟩
    let systemRhs := computeRhs P 0 C.nodes.tmpRhs
    (computeConstraints C.nodes C.doubles C.hanging C.fuel C.order).map fun c =>
      let cc := constrainedVmult C.procs (fun i => C.owner i) (vmult P) (toConstraints c)
      let systemRhs := distributeRhs (toConstraints c) systemRhs
      let sol := gmres cc systemRhs
      let out := storeSolution C.nodes.dirichlet sol phi0 dphi0
      ⟨out.1, out.2, sol, fun i => systemRhs i - cc sol i⟩)

/-- `BEMProblem::solve` (bem_problem.cc:1833-1860), dimension 3. -/
def solve {d : ℕ} (inp : Input 3) (D : Data) (S S' : SingRule) (C : Setup inp.nDofs d)
    (gmres : (Vec inp.nDofs → Vec inp.nDofs) → Vec inp.nDofs → Vec inp.nDofs) (st : AlphaStatics)
    (phi0 dphi0 : Vec inp.nDofs) : AlphaStatics × Option (Solution inp.nDofs) :=
  solveWith (solveMatrix inp D S S' C.method C.owner .double) (solveMatrix inp D S S' C.method C.owner .single) C gmres st phi0 dphi0

end PiBem.Bem
