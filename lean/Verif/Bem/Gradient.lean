import Mathlib.Data.Real.Basic
import Mathlib.Data.Fintype.BigOperators
import Mathlib.Algebra.BigOperators.Group.Finset.Basic

/-!
# Recovery of gradients, surface gradients and normals

`BEMProblem<dim>::compute_gradients` (source/bem_problem.cc:2260-2422), `compute_surface_gradients` (2424-2569) and
`compute_normals` (2914-3017), any dimension `d` of the space, exact real arithmetic: assembly of the mass matrix and of the right hand side
on the cells of each process, `compress`, linear system, `distribute`. The values of shape functions, gradients, normals and
`JxW` at the quadrature points are data. GMRES with its preconditioner is not modelled: the theorems speak of the exact
solution of the assembled system.
-/

noncomputable section

namespace PiBem.Grad

variable {d : ℕ}

/-- What `vector_fe_v.reinit(vector_cell)` and `fe_v.reinit(cell)` give on a cell (bem_problem.cc:2292-2307, 2356-2365). -/
structure Cell (d : ℕ) where
  /-- `subdomain_id()` -/
  subdomain : ℕ
  /-- `vector_local_dof_indices` -/
  dofs : List ℕ
  /-- `vector_n_q_points` -/
  nq : ℕ
  /-- `vector_fe_v.shape_value(i, q)` -/
  shape : ℕ → ℕ → ℝ
  /-- `vector_fe_v.JxW(q)` -/
  jxw : ℕ → ℝ
  /-- `vector_fe_v.get_normal_vectors()[q]` -/
  normal : ℕ → (Fin d → ℝ)
  /-- dofs of the scalar element on the cell -/
  sdofs : List ℕ
  /-- `fe_v.shape_value(j, q)` -/
  sshape : ℕ → ℕ → ℝ
  /-- `fe_v.shape_grad(j, q)`, tangential to the surface -/
  sgrad : ℕ → ℕ → (Fin d → ℝ)

/-- The data shared by the three functions: the cells, `gradient_dh.n_dofs()`,
`gradient_fe->system_to_component_index(i).first` and `vector_constraints` (hanging nodes, homogeneous; after `close()` the
entries of a constraint are not constrained, bem_problem.cc:188-190). -/
structure Mesh (d : ℕ) where
  nCells : ℕ
  cell : ℕ → Cell d
  nDofs : ℕ
  comp : ℕ → Fin d
  cs : ℕ → Option (List (ℕ × ℝ))

/-- A matrix. -/
abbrev Matr := ℕ → ℕ → ℝ

/-- `M(i, j) += x`. -/
def Matr.add (M : Matr) (i j : ℕ) (x : ℝ) : Matr := Function.update M i (Function.update (M i) j (M i j + x))

/-- `v(i) += x`. -/
def vecAdd (v : ℕ → ℝ) (i : ℕ) (x : ℝ) : ℕ → ℝ := Function.update v i (v i + x)

/-- `local_gradients_matrix` (bem_problem.cc:2378-2391, the same as 2517-2530 and 2969-2980). -/
def localMat (comp : ℕ → Fin d) (C : Cell d) : Matr :=
  (List.range C.nq).foldl (fun A q =>
    (List.range C.dofs.length).foldl (fun A i =>
      (List.range C.dofs.length).foldl (fun A j =>
        if comp i = comp j then A.add i j (C.shape i q * C.shape j q * C.jxw q) else A) A) A) fun _ _ => 0

/-- `local_gradients_rhs` (bem_problem.cc:2392-2394, the same as 2531-2533 and 2982-2984); `g q` is the vector projected. -/
def localRhs (comp : ℕ → Fin d) (C : Cell d) (g : ℕ → (Fin d → ℝ)) : ℕ → ℝ :=
  (List.range C.nq).foldl (fun F q =>
    (List.range C.dofs.length).foldl (fun F i => vecAdd F i (C.shape i q * g q (comp i) * C.jxw q)) F) fun _ => 0

/-- `get_function_values` of the scalar element at quadrature point `q`. -/
def scalarValue (C : Cell d) (x : ℕ → ℝ) (q : ℕ) : ℝ :=
  ∑ j ∈ Finset.range C.sdofs.length, x (C.sdofs.getD j 0) * C.sshape j q

/-- `get_function_gradients` of the scalar element at quadrature point `q`: `phi_surf_grads[q]`. -/
def scalarGrad (C : Cell d) (x : ℕ → ℝ) (q : ℕ) : (Fin d → ℝ) :=
  fun k => ∑ j ∈ Finset.range C.sdofs.length, x (C.sdofs.getD j 0) * C.sgrad j q k

/-- `gradient` in `compute_gradients` (bem_problem.cc:2366-2377). -/
def fullGrad (phi dphi : ℕ → ℝ) (C : Cell d) (q : ℕ) : (Fin d → ℝ) :=
  fun k => C.normal q k * scalarValue C dphi q + scalarGrad C phi q k

/-- `gradient` in `compute_surface_gradients` (bem_problem.cc:2509-2516). -/
def surfGrad (phi : ℕ → ℝ) (C : Cell d) (q : ℕ) : (Fin d → ℝ) := scalarGrad C phi q

/-- `vector_node_normals[q]` in `compute_normals` (bem_problem.cc:2963, 2983). -/
def cellNormal (C : Cell d) (q : ℕ) : (Fin d → ℝ) := C.normal q

/-- The unknowns a dof stands for, with coefficients: itself, or the entries of its constraint. -/
def resolve (cs : ℕ → Option (List (ℕ × ℝ))) (g : ℕ) : List (ℕ × ℝ) :=
  match cs g with
  | none => [(g, 1)]
  | some e => e

/-- `AffineConstraints::distribute_local_to_global(matrix, rhs, dofs, ...)`, the matrix (bem_problem.cc:2397-2402). Library
contract: contributions of a constrained dof go to the entries of its constraint; a constrained dof gets a number on the
diagonal, `diag` (in deal.II the absolute value of the local diagonal entry, or the average of the local diagonal if that is
zero). -/
def scatterMat (cs : ℕ → Option (List (ℕ × ℝ))) (dofs : List ℕ) (A : Matr) (diag : ℕ → ℝ) (M : Matr) : Matr :=
  (List.range dofs.length).foldl (fun (M : Matr) i => if (cs (dofs.getD i 0)).isSome
      then M.add (dofs.getD i 0) (dofs.getD i 0) (diag i) else M)
    ((List.range dofs.length).foldl (fun (M : Matr) i =>
      (List.range dofs.length).foldl (fun (M : Matr) j =>
        (resolve cs (dofs.getD i 0)).foldl (fun (M : Matr) ra =>
          (resolve cs (dofs.getD j 0)).foldl (fun (M : Matr) sb =>
            M.add ra.1 sb.1 (ra.2 * sb.2 * A i j)) M) M) M) M)

/-- `distribute_local_to_global`, the right hand side: nothing is added in constrained rows (homogeneous constraints). -/
def scatterRhs (cs : ℕ → Option (List (ℕ × ℝ))) (dofs : List ℕ) (F : ℕ → ℝ) (b : ℕ → ℝ) : ℕ → ℝ :=
  (List.range dofs.length).foldl (fun b i =>
    (resolve cs (dofs.getD i 0)).foldl (fun b ra => vecAdd b ra.1 (ra.2 * F i)) b) b

/-- Diagonal entries put in the rows of constrained dofs: cell, local dof. -/
abbrev Diag := ℕ → ℕ → ℝ

/-- Contributions of process `p` to the matrix (bem_problem.cc:2347-2405): cells with `subdomain_id() == this_mpi_process`. -/
def matOn (T : Mesh d) (dg : Diag) (p : ℕ) : Matr :=
  (List.range T.nCells).foldl (fun M c =>
    if (T.cell c).subdomain = p then scatterMat T.cs (T.cell c).dofs (localMat T.comp (T.cell c)) (dg c) M else M)
    fun _ _ => 0

/-- Contributions of process `p` to the right hand side (bem_problem.cc:2347-2405); `g` is the vector projected. -/
def rhsOn (T : Mesh d) (g : Cell d → ℕ → (Fin d → ℝ)) (p : ℕ) : ℕ → ℝ :=
  (List.range T.nCells).foldl (fun b c =>
    if (T.cell c).subdomain = p then
      scatterRhs T.cs (T.cell c).dofs (localRhs T.comp (T.cell c) (g (T.cell c))) b else b)
    fun _ => 0

/-- The matrix after `compress(VectorOperation::add)` (bem_problem.cc:2408). -/
def mat (T : Mesh d) (dg : Diag) (procs : ℕ) : Matr := fun r s => ∑ p ∈ Finset.range procs, matOn T dg p r s

/-- The right hand side after `compress(VectorOperation::add)` (bem_problem.cc:2409). -/
def rhs (T : Mesh d) (g : Cell d → ℕ → (Fin d → ℝ)) (procs : ℕ) : ℕ → ℝ := fun r => ∑ p ∈ Finset.range procs, rhsOn T g p r

/-- `u` solves the assembled system (bem_problem.cc:2411-2419, exact). -/
def Solves (T : Mesh d) (g : Cell d → ℕ → (Fin d → ℝ)) (dg : Diag) (procs : ℕ) (u : ℕ → ℝ) : Prop :=
  ∀ r < T.nDofs, ∑ s ∈ Finset.range T.nDofs, mat T dg procs r s * u s = rhs T g procs r

/-- `vector_constraints.distribute(u)` (bem_problem.cc:2421). -/
def distribute (T : Mesh d) (u : ℕ → ℝ) : ℕ → ℝ := fun r =>
  match T.cs r with
  | none => u r
  | some e => e.foldl (fun x se => x + se.2 * u se.1) 0

end PiBem.Grad
