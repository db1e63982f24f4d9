import Verif.Bem.Constrained
import Mathlib.Analysis.SpecialFunctions.Pow.Real

/-!
# The linear operator of `BEMProblem`

`BEMProblem::compute_alpha`, `vmult`, `compute_rhs`, `solve_system` and `assemble_preconditioner`
(bem_problem.cc). Distributed vectors are modelled by their global content `Fin n → ℝ` (`double` without rounding);
the partition among processes matters only for `compute_alpha`, where it is a label.
-/

namespace PiBem.Bem

noncomputable section

variable {n : ℕ}

abbrev Vec (n : ℕ) := Fin n → ℝ
abbrev Mat (n : ℕ) := Fin n → Fin n → ℝ

/-- `vector_shift` (bem_problem.cc:37-43). -/
def vectorShift (v : Vec n) (a : ℝ) : Vec n := fun i => v i + a

/-- `Vector::scale`: entrywise product. -/
def scale (v w : Vec n) : Vec n := fun i => v i * w i

/-- `SparseMatrix::vmult` of a full matrix. -/
def matVmult (M : Mat n) (x : Vec n) : Vec n := fun i => ∑ j, M i j * x j

/-- `Vector::l2_norm`. -/
def l2norm (v : Vec n) : ℝ := Real.sqrt (∑ i, v i ^ 2)

/-- `solution_method` (bem_problem.cc:463). -/
inductive Method | direct | fma
  deriving DecidableEq

/-- Members of `BEMProblem` read by the operator. `dirichlet_nodes` and `neumann_nodes` are vectors of `double`. -/
structure Problem (n : ℕ) where
  neumannMatrix : Mat n
  dirichletMatrix : Mat n
  alpha : Vec n
  dirichletNodes : Vec n
  neumannNodes : Vec n
  haveDirichletBc : Bool
  method : Method

/-- `fma.generate_multipole_expansions` followed by `fma.multipole_matr_vect_products` (bem_fma.cc:2520-3290). The old
contents `outN`, `outD` of the outputs are overwritten by the products with the near field matrices (`vmult`,
bem_fma.cc:2589-2590), to which the contributions of the expansions are added.
The products are modelled as products with two matrices: C65 (`C65_operator`) proves that all the executions of the
product with expansions compute the product with one fixed matrix, truncation of the expansions included. -/
def fmaProducts (P : Problem n) (phi dphi _outN _outD : Vec n) : Vec n × Vec n :=
  (matVmult P.neumannMatrix phi, matVmult P.dirichletMatrix dphi)

/-- `BEMProblem::vmult` (bem_problem.cc:1591-1646). The output does not depend on the old content of `dst`. -/
def vmult (P : Problem n) (src : Vec n) : Vec n :=
  let servPhi := if P.haveDirichletBc then src else vectorShift src (-(l2norm src))
  let servDphi := src
  let servPhi := scale servPhi P.neumannNodes
  let servDphi := scale servDphi P.dirichletNodes
  let dst : Vec n := match P.method with
    | .direct =>
      let dst := matVmult P.dirichletMatrix servDphi
      let dst : Vec n := fun i => dst i * (-1)
      let dst : Vec n := fun i => dst i + matVmult P.neumannMatrix servPhi i
      let servPhi := scale servPhi P.alpha
      fun i => dst i + servPhi i
    | .fma =>
      let dst : Vec n := fun _ => 0
      let prod := fmaProducts P servPhi servDphi (fun _ => 0) (fun _ => 0)
      let servPhi := scale servPhi P.alpha
      let dst : Vec n := fun i => dst i + prod.2 i
      let dst : Vec n := fun i => dst i * (-1)
      let dst : Vec n := fun i => dst i + prod.1 i
      fun i => dst i + servPhi i
  if P.haveDirichletBc then dst else vectorShift dst (-(l2norm dst))

/-- `BEMProblem::compute_rhs` (bem_problem.cc:1649-1691); `dst` is the old content of the output. -/
def computeRhs (P : Problem n) (dst src : Vec n) : Vec n :=
  let servPhi := scale src P.dirichletNodes
  let servDphi := scale src P.neumannNodes
  match P.method with
  | .direct =>
    let dst := matVmult P.neumannMatrix servPhi
    let servPhi := scale servPhi P.alpha
    let dst : Vec n := fun i => dst i + servPhi i
    let dst : Vec n := fun i => dst i * (-1)
    fun i => dst i + matVmult P.dirichletMatrix servDphi i
  | .fma =>
    let prod := fmaProducts P servPhi servDphi (fun _ => 0) (fun _ => 0)
    let servPhi := scale servPhi P.alpha
    let dst : Vec n := fun i => dst i + prod.1 i
    let dst : Vec n := fun i => dst i + servPhi i
    let dst : Vec n := fun i => dst i * (-1)
    fun i => dst i + prod.2 i

/-- End of `solve_system` (bem_problem.cc:1789-1803): the solution is stored in one of the two outputs. -/
def storeSolution (dirichletNodes sol phi dphi : Vec n) : Vec n × Vec n :=
  (List.finRange n).foldl (fun (o : Vec n × Vec n) i =>
    if dirichletNodes i = 0 then (Function.update o.1 i (sol i), o.2)
    else (o.1, Function.update o.2 i (sol i))) (phi, dphi)

/-- The static vectors of `compute_alpha` (bem_problem.cc:1560): size and entries of `ones` (those below `size`) and
the partition with which it was initialised. -/
structure AlphaStatics where
  size : ℕ
  ones : ℕ → ℝ
  part : ℕ

/-- Before the first call the static vectors are empty. -/
def AlphaStatics.init : AlphaStatics := ⟨0, fun _ => 0, 0⟩

/-- The initialisation of the static vectors (bem_problem.cc:1561-1567): `ones` is zeroed and shifted by -1 when its
size differs from the number of dofs. -/
def alphaStaticsStep (n part : ℕ) (s : AlphaStatics) : AlphaStatics :=
  if s.size ≠ n then ⟨n, fun _ => 0 + (-1), part⟩ else s

/-- `BEMProblem::compute_alpha` (bem_problem.cc:1558-1587) for a problem of size `n` whose dofs are partitioned among
the processes according to `part` (a label). The result is `none` when the matrix and the vector it multiplies have
different partitions. `_alpha` is the old content (set to zero by `solve_system`, bem_problem.cc:1712), overwritten by
both branches (`vmult` in bem_problem.cc:1572, see `fmaProducts` for the other). -/
def computeAlpha (m : Method) (part : ℕ) (N : Mat n) (_alpha : Vec n) (s : AlphaStatics) :
    AlphaStatics × Option (Vec n) :=
  let s' := alphaStaticsStep n part s
  let ones : Vec n := fun i => s'.ones i
  (s', if s'.part = part then
      some (match m with
        | .direct => matVmult N ones
        | .fma => fun i => matVmult N ones i)
    else none)

/-! ## assemble_preconditioner -/

/-- `start_helper` (bem_problem.cc:2184-2186, 2216-2218), 32 bit unsigned arithmetic (`types::global_dof_index`). -/
def bandStart (i band : UInt32) : UInt32 := if i > band / 2 then i - band / 2 else 0

/-- End of the loop over the columns (bem_problem.cc:2187-2190, 2220-2223). -/
def bandEnd (i band size : UInt32) : UInt32 := min (i + band / 2) size

/-- The columns visited in row `i`: `for (j = bandStart; j < bandEnd; ++j)`. -/
def bandCols (i band size : UInt32) : List ℕ :=
  (List.range (bandEnd i band size).toNat).filter (fun j => (bandStart i band).toNat ≤ j)

/-- Entries of `band_system` for row `i` as a list of `add(i, j, value)` calls (bem_problem.cc:2200-2242):
constrained rows are identity rows, the others take the whole row from `neumann_matrix` plus `alpha`, or from
`-dirichlet_matrix`, according to the type of the *row*. -/
def bandRow (P : Problem n) (c : Constraints ℝ n) (band : UInt32) (i : Fin n) : List (Fin n × ℝ) :=
  let cols := (List.finRange n).filter (fun j => j.val ∈ bandCols (UInt32.ofNat i) band (UInt32.ofNat n))
  (if (c i).isSome then [(i, 1)] else []) ++
  cols.flatMap (fun j =>
    if (c i).isSome then [] else
    if P.dirichletNodes i = 0 then
      [(j, P.neumannMatrix i j)] ++ (if i = j then [(j, P.alpha i)] else [])
    else [(j, -(P.dirichletMatrix i j))])

end

end PiBem.Bem
