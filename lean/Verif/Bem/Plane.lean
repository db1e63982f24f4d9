import Verif.Bem.Solve

/-!
# Dimension 2

`BEMProblem<2>`: dense assembly (`assemble_system`, bem_problem.cc:754-1246) with the logarithmic kernel, and `solve`. The code is the
template of dimension 3 with other kernels (laplace_kernel.h:93-110, `case 2`) and another singular quadrature (`QTelles`,
bem_problem.cc:442-456). Positions are real. One kernel at a time: `double` is `neumann_matrix`, `single` is `dirichlet_matrix`.
-/

noncomputable section

namespace PiBem.Bem.Plane

open PiBem.Fmm (Ker)

/-- Points and vectors of the plane. -/
abbrev V2 := Fin 2 → ℝ

/-- A point of a quadrature mapped on a cell: position, normal, shape values, `JxW` (bem_problem.cc:836-838, 902-905 for the regular quadrature, 1133-1158 for
the singular ones). -/
structure QPoint where
  pos : V2
  normal : V2
  shape : ℕ → ℝ
  jxw : ℝ

/-- A curve with its mesh: support points, cells, quadrature points of the cells, singular quadratures (cell, local dof), double nodes. -/
structure Curve where
  nDofs : ℕ
  pos : ℕ → V2
  nCells : ℕ
  cellDofs : ℕ → List ℕ
  quad : ℕ → List QPoint
  sing : ℕ → ℕ → List QPoint
  doubles : ℕ → Finset ℕ

/-- Contribution of a quadrature point (bem_problem.cc:889-907, 1138-1159): `R = q - x`, `LaplaceKernel::kernels(R, D, s)`. -/
def term (K : Curve) (ker : Ker) (i j : ℕ) (P : QPoint) : ℝ :=
  let R : V2 := fun a => P.pos a - K.pos i a
  match ker with
  | .double => ((Kernel.kernels2 R).1 0 * P.normal 0 + (Kernel.kernels2 R).1 1 * P.normal 1) * P.shape j * P.jxw
  | .single => (Kernel.kernels2 R).2 * P.shape j * P.jxw

/-- `singular_index`, `is_singular` (bem_problem.cc:863-874). -/
def singularIndex (K : Curve) (i c : ℕ) : Option ℕ :=
  (K.cellDofs c).findIdx? fun k => decide (k ∈ K.doubles i)

/-- `local_neumann_matrix_row_i(j)` or `local_dirichlet_matrix_row_i(j)` after the quadrature loops (bem_problem.cc:858-1160). -/
def localRow (K : Curve) (ker : Ker) (i c j : ℕ) : ℝ :=
  match singularIndex K i c with
  | none => (K.quad c).foldl (fun x P => x + term K ker i j P) 0
  | some s => (K.sing c s).foldl (fun x P => x + term K ker i j P) 0

/-- The contributions of cell `c` added to row `i` (bem_problem.cc:1162-1175). -/
def addCellRow (K : Curve) (ker : Ker) (c : ℕ) (M : Matr) (i : ℕ) : Matr :=
  (List.range (K.cellDofs c).length).foldl (fun M j => M.add i ((K.cellDofs c).getD j 0) (localRow K ker i c j)) M

/-- `assemble_system` (bem_problem.cc:754-1246) on the process with rows `own`. -/
def assemble (K : Curve) (ker : Ker) (own : ℕ → Bool) : Matr :=
  (List.range K.nCells).foldl (fun M c =>
    (List.range K.nDofs).foldl (fun M i => if own i then addCellRow K ker c M i else M) M) fun _ _ => 0

/-- The matrix of all processes: each row assembled by the process owning it. -/
def planeMatrix (K : Curve) (owner : ℕ → ℕ) (ker : Ker) : Mat K.nDofs :=
  fun i k => assemble K ker (fun r => decide (owner r = owner i)) i k

/-- `BEMProblem<2>::solve` (bem_problem.cc:1833-1860). With the fast multipole method the exception `FMA only works in 3D` is thrown (line 1849) before anything
else is done. -/
def solve (K : Curve) (C : Setup K.nDofs 2) (gmres : (Vec K.nDofs → Vec K.nDofs) → Vec K.nDofs → Vec K.nDofs) (st : AlphaStatics)
    (phi0 dphi0 : Vec K.nDofs) : AlphaStatics × Option (Solution K.nDofs) :=
  match C.method with
  | .direct => solveWith (planeMatrix K C.owner .double) (planeMatrix K C.owner .single) C gmres st phi0 dphi0
  | .fma => (st, none)

end PiBem.Bem.Plane
