import Verif.Fmm.Numeric

/-!
# Dense assembly of the two matrices

`BEMProblem<dim>::assemble_system` (source/bem_problem.cc:754-1246), dimension 3, and the choice of the singular
quadrature in both methods: `get_singular_quadrature` (bem_problem.cc:423-440, `QSplit(QDuffy)`) for the dense matrices,
`sing_quadratures` (bem_fma.cc:151-155, `QTelles`) for the fast multipole product. A singular quadrature mapped on a cell
(`fe_v_singular`) is the list of its points with normals, shape values and `JxW`. Exact real arithmetic. One kernel at a
time: `double` is `neumann_matrix`, `single` is `dirichlet_matrix`.
-/

noncomputable section

namespace PiBem.Bem

open PiBem.Octree PiBem.Expansion PiBem.Fmm

/-- A point of a quadrature mapped on a cell: `singular_q_points[q]`, `singular_normals[q]`,
`fe_v_singular.shape_value(j, q)`, `fe_v_singular.JxW(q)` (bem_problem.cc:1133-1158, bem_fma.cc:970-1005). -/
structure SingPoint where
  pos : V3
  normal : V3
  shape : ℕ → ℝ
  jxw : ℝ

/-- The singular quadratures mapped on the cells: cell, local dof whose support point is the singularity. -/
abbrev SingRule := ℕ → ℕ → List SingPoint

/-- `singular_index`, `is_singular` (bem_problem.cc:863-874, bem_fma.cc:849-865): the first local dof of the cell which is
a double of `i`. -/
def singularIndex (inp : Input 3) (i c : ℕ) : Option ℕ :=
  (inp.cellDofs c).findIdx? fun k => decide (k ∈ inp.doubles i)

/-- Contribution of one point of a singular quadrature (bem_problem.cc:1138-1159, bem_fma.cc:981-1006). -/
def singTerm (inp : Input 3) (ker : Ker) (i j : ℕ) (P : SingPoint) : ℝ :=
  let R : V3 := P.pos - toV (inp.pos i)
  match ker with
  | .double => dot (Kernel.kernels3 R).1 P.normal * P.shape j * P.jxw
  | .single => (Kernel.kernels3 R).2 * P.shape j * P.jxw

/-- `local_neumann_matrix_row_i(j)` or `local_dirichlet_matrix_row_i(j)` after the quadrature loops
(bem_problem.cc:858-1160). -/
def localRow (inp : Input 3) (D : Data) (S : SingRule) (ker : Ker) (i c j : ℕ) : ℝ :=
  match singularIndex inp i c with
  | none => (List.range inp.nq).foldl (fun x q => x + regEntry inp D ker i (c, q) j) 0
  | some s => (S c s).foldl (fun x P => x + singTerm inp ker i j P) 0

/-- A matrix: row, column. -/
abbrev Matr := ℕ → ℕ → ℝ

/-- `SparseMatrix::add(i, k, x)`. -/
def Matr.add (M : Matr) (i k : ℕ) (x : ℝ) : Matr := Function.update M i (Function.update (M i) k (M i k + x))

/-- The contributions of cell `c` added to row `i` (bem_problem.cc:1162-1175). -/
def addCellRow (inp : Input 3) (D : Data) (S : SingRule) (ker : Ker) (c : ℕ) (M : Matr) (i : ℕ) : Matr :=
  (List.range (inp.cellDofs c).length).foldl
    (fun M j => M.add i ((inp.cellDofs c).getD j 0) (localRow inp D S ker i c j)) M

/-- `assemble_system` (bem_problem.cc:754-1246) on the process with rows `own`. -/
def assemble (inp : Input 3) (D : Data) (S : SingRule) (ker : Ker) (own : ℕ → Bool) : Matr :=
  (List.range inp.nCells).foldl (fun M c =>
    (List.range inp.nDofs).foldl (fun M i => if own i then addCellRow inp D S ker c M i else M) M) fun _ _ => 0

/-- `neumann_matrix.vmult`, `dirichlet_matrix.vmult`. -/
def denseProduct (inp : Input 3) (M : Matr) (x : ℕ → ℝ) (i : ℕ) : ℝ := ∑ k ∈ Finset.range inp.nDofs, M i k * x k

/-- Entries of the singular cells of the fast multipole product (bem_fma.cc:934-1006) with the singular quadratures `S`.
For cells without local dofs among the doubles of `i` the value is not used. -/
def fmaSing (inp : Input 3) (S : SingRule) (ker : Ker) (i c j : ℕ) : ℝ :=
  match singularIndex inp i c with
  | none => 0
  | some s => (S c s).foldl (fun x P => x + singTerm inp ker i j P) 0

/-- The data of the product with the singular entries computed by the quadratures `S`. -/
def withSing (inp : Input 3) (D : Data) (S : SingRule) (ker : Ker) : Data := { D with sing := fmaSing inp S ker }

end PiBem.Bem
