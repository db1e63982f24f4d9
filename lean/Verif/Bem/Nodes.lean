import Verif.Bem.Operator
import Mathlib.Data.Finset.Max
import Mathlib.Data.Finset.Sort

/-!
# Nodes of `BEMProblem`

`compute_dirichlet_and_neumann_dofs_vectors`, `compute_double_nodes_set`, `compute_reordering_vectors` and the double
node loop of `compute_constraints` (bem_problem.cc).
-/

namespace PiBem.Bem

noncomputable section

variable {n : ℕ}

/-! ## Dirichlet and Neumann nodes -/

/-- What the classification reads of a cell: subdomain id, material id, dof indices. -/
structure BCell (n : ℕ) where
  subdomain : ℕ
  material : ℕ
  dofs : List (Fin n)

/-- Local state of a process: `non_partitioned_dirichlet_nodes`, `non_partitioned_neumann_nodes`,
`helper_dirichlet`. -/
structure Classif (n : ℕ) where
  dir : Vec n
  neu : Vec n
  helper : ℕ

/-- One cell (bem_problem.cc:594-629) on process `proc`: the search in the list of ids stops at the first match. -/
def classifyCell (ids : List ℕ) (proc : ℕ) (s : Classif n) (cell : BCell n) : Classif n :=
  if cell.subdomain = proc then
    if ids.any (fun d => d == cell.material) then
      let s := cell.dofs.foldl (fun (s : Classif n) i =>
        { s with dir := Function.update s.dir i 1, neu := Function.update s.neu i 0 }) s
      { s with helper := 1 }
    else s
  else s

/-- Loop over the cells on process `proc` (bem_problem.cc:578-651): the vectors start from 0 and from 0 shifted
by 1. -/
def classifyLocal (ids : List ℕ) (cells : List (BCell n)) (proc : ℕ) : Classif n :=
  cells.foldl (classifyCell ids proc) ⟨fun _ => 0, vectorShift (fun _ => 0) 1, 0⟩

/-- `dirichlet_nodes` (bem_problem.cc:653-658): each process copies the entries it owns. -/
def dirichletNodes (ids : List ℕ) (cells : List (BCell n)) (own : Fin n → ℕ) : Vec n :=
  fun i => (classifyLocal ids cells (own i)).dir i

/-- `neumann_nodes` (bem_problem.cc:653-658). -/
def neumannNodes (ids : List ℕ) (cells : List (BCell n)) (own : Fin n → ℕ) : Vec n :=
  fun i => (classifyLocal ids cells (own i)).neu i

/-- `have_dirichlet_bc` (bem_problem.cc:663-677): maximum over the processes. -/
def haveDirichlet (ids : List ℕ) (cells : List (BCell n)) (procs : ℕ) : Bool :=
  decide (0 < (Finset.range procs).sup (fun p => (classifyLocal ids cells p).helper))

/-! ## Double nodes -/

/-- `Point::distance`. -/
def pdist {d : ℕ} (x y : Fin d → ℝ) : ℝ := Real.sqrt (∑ k, (x k - y k) ^ 2)

/-- `compute_double_nodes_set` (bem_problem.cc:686-730), tolerance `tol = 1e-10`. `edge` is the ascending list of the
dofs lying on boundary faces. The sets are `std::set`, here finite sets. -/
def doubleNodes {d : ℕ} (tol : ℝ) (edge : List (Fin n)) (pts : Fin n → Fin d → ℝ) : Fin n → Finset (Fin n) :=
  let sets : Fin n → Finset (Fin n) := (List.finRange n).foldl
    (fun s i => Function.update s i (insert i (s i))) (fun _ => ∅)
  edge.foldl (fun s i => edge.foldl (fun s j =>
    open Classical in
    if pdist (pts i) (pts j) < tol then Function.update s i (insert j (s i)) else s) s) sets

/-! ## Constraints of double nodes -/

/-- Division of `double`s: `none` for a non-finite result. -/
def fdiv (a b : ℝ) : Option ℝ := if b = 0 then none else some (a / b)

/-- Comparison `a < b` with a finite `b` of a number that may be NaN or infinite: a quotient `x / x` is NaN when it is
not finite, and the comparison is false. -/
def fltNaN (a : Option ℝ) (b : ℝ) : Prop :=
  match a with
  | some a => a < b
  | none => False

/-- `AffineConstraints` under construction: entries and inhomogeneity (`none`: not finite) of every line. -/
abbrev Lines (n : ℕ) := Fin n → Option (List (Fin n × ℝ) × Option ℝ)

/-- `AffineConstraints::add_line`: nothing is done if the line exists. -/
def addLine (c : Lines n) (i : Fin n) : Lines n :=
  match c i with
  | some _ => c
  | none => Function.update c i (some ([], some 0))

/-- `AffineConstraints::add_entry`: nothing is done if the column exists. -/
def addEntry (c : Lines n) (i j : Fin n) (v : ℝ) : Lines n :=
  match c i with
  | some (es, g) => if es.any (fun e => e.1 == j) then c else Function.update c i (some (es ++ [(j, v)], g))
  | none => c

/-- `AffineConstraints::set_inhomogeneity`. -/
def setInhom (c : Lines n) (i : Fin n) (v : Option ℝ) : Lines n :=
  match c i with
  | some (es, _) => Function.update c i (some (es, v))
  | none => c

variable {d : ℕ}

/-- Scalar product accumulated over `idim`. -/
def dot (x y : Fin d → ℝ) : ℝ := ∑ k, x k * y k

/-- What the loop reads: `dirichlet_nodes`, `tmp_rhs`, normals, surface gradients, `continuos_gradient`. -/
structure NodeData (n d : ℕ) where
  dirichlet : Vec n
  tmpRhs : Vec n
  normal : Fin n → Fin d → ℝ
  surfGrad : Fin n → Fin d → ℝ
  continuosGradient : Bool

/-- `this_normal_gradient` (bem_problem.cc:2029-2032). -/
def thisNormalGradient (D : NodeData n d) (i it : Fin n) : Option ℝ :=
  (fdiv 1 (1 - dot (D.normal i) (D.normal it) ^ 2)).map
    (· * (dot (D.surfGrad it) (D.normal i) + dot (D.surfGrad i) (D.normal it) * dot (D.normal i) (D.normal it)))

/-- `other_normal_gradient` (bem_problem.cc:2033-2036). -/
def otherNormalGradient (D : NodeData n d) (i it : Fin n) : Option ℝ :=
  (fdiv 1 (1 - dot (D.normal i) (D.normal it) ^ 2)).map
    (· * (dot (D.surfGrad i) (D.normal it) + dot (D.surfGrad it) (D.normal i) * dot (D.normal i) (D.normal it)))

/-- The condition of the flat edge branch (bem_problem.cc:1946-1985): `normal_distance /= normal_distance` and then
`normal_distance < 1e-4`. -/
def flatEdge (D : NodeData n d) (i it : Fin n) : Prop :=
  fltNaN (fdiv (dot (D.normal i) (D.normal it)) (dot (D.normal i) (D.normal it))) 1e-4

open Classical in
/-- Body for a double `it` of a Dirichlet leader `i` (bem_problem.cc:1938-2064). -/
def dirichletDouble (D : NodeData n d) (i : Fin n) (c : Lines n) (it : Fin n) : Lines n :=
  if D.dirichlet it = 1 then
    if flatEdge D i it then addEntry (addLine c it) it i 1
    else if D.continuosGradient then
      let c := addLine c it
      let c := addLine c i
      let c := setInhom c i (thisNormalGradient D i it)
      let c := addLine c it
      setInhom c it (otherNormalGradient D i it)
    else c
  else setInhom (addLine c it) it (some (D.tmpRhs i))

open Classical in
/-- `firstOfDoubles` (bem_problem.cc:1905-1918): the first Dirichlet node of the (ascending) set, otherwise its first
element. -/
def leader (D : NodeData n d) (doubles : Finset (Fin n)) : Option (Fin n) :=
  match (doubles.sort (· ≤ ·)).find? (fun j => decide (D.dirichlet j = 1)) with
  | some j => some j
  | none => (doubles.sort (· ≤ ·)).head?

open Classical in
/-- One iteration of the loop over the dofs (bem_problem.cc:1897-2098). -/
def constraintStep (D : NodeData n d) (doubles : Fin n → Finset (Fin n)) (c : Lines n) (i : Fin n) : Lines n :=
  if leader D (doubles i) = some i then
    let others := ((doubles i).erase i).sort (· ≤ ·)
    let c := if D.dirichlet i = 1 then others.foldl (dirichletDouble D i) c else c
    if D.dirichlet i = 0 then others.foldl (fun c it => addEntry (addLine c it) it i 1) c else c
  else c

/-- The double node part of `compute_constraints` (bem_problem.cc:1881, 1897-2098), before hanging node constraints
are merged. -/
def doubleNodeConstraints (D : NodeData n d) (doubles : Fin n → Finset (Fin n)) : Lines n :=
  (List.finRange n).foldl (constraintStep D doubles) (fun _ => none)

/-! ## Reordering vectors -/

/-- The loop filling `sub_wise_to_original` and `vec_sub_wise_to_original` (bem_problem.cc:742-751); `o2s`, `vo2s` are
the outputs of `DoFRenumbering::compute_subdomain_wise`. Arrays are total functions on `ℕ`; entries beyond the sizes
are not meaningful. -/
def reorderingVectors (nDofs nGrad : ℕ) (o2s vo2s : ℕ → ℕ) : (ℕ → ℕ) × (ℕ → ℕ) :=
  (List.range nGrad).foldl (fun (r : (ℕ → ℕ) × (ℕ → ℕ)) i =>
    (if i < nDofs then Function.update r.1 (o2s i) i else r.1, Function.update r.2 (vo2s i) i))
    (fun _ => 0, fun _ => 0)

/-- Position of component `idim` of the normal (gradient) of dof `i` in the vector valued solutions
(bem_problem.cc:1958-1981 and others). -/
def vecIndex (nGrad dim : ℕ) (s2o vo2s : ℕ → ℕ) (i idim : ℕ) : ℕ := vo2s (nGrad / dim * idim + s2o i)

end

end PiBem.Bem
