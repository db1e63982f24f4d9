import Verif.Bem.Ownership
import Verif.Bem.Boundary

/-!
# Elements for scalars and vectors

The parameter file chooses the order of the element of the potential and of the element of the vector quantities (normals,
gradients, positions) independently (source/bem_problem.cc:497-515, 545-557); no function compares them. The numbering of the
degrees of freedom of continuous elements by deal.II, library contract of `distribute_dofs` and `component_wise`
(bem_problem.cc:172-179): the active cells are visited in order, on each cell the vertices, then the lines, then the
interior; what has a number keeps it. The vector element has one copy of the scalar numbering for each component.
-/

namespace PiBem.Bem

/-- Nodes of continuous elements: vertices (the same points for all orders), inner nodes of a line, inner nodes of a cell. -/
inductive ENode
  | vertex (v : ℕ)
  | line (l j : ℕ)
  | inner (c j : ℕ)
  deriving DecidableEq

/-- The active cells of a surface mesh, with their vertices and lines; cells are lines themselves if `dm = 1` and have no
others. -/
structure ECells where
  dm : ℕ
  nCells : ℕ
  vertices : ℕ → List ℕ
  lines : ℕ → List ℕ

/-- Cells have `2 ^ dm` different vertices and, if they are quadrilaterals, four different lines. -/
structure ECells.WF (G : ECells) : Prop where
  dim : G.dm = 1 ∨ G.dm = 2
  vlen : ∀ c, (G.vertices c).length = 2 ^ G.dm
  vnodup : ∀ c, (G.vertices c).Nodup
  llen : ∀ c, (G.lines c).length = if G.dm = 2 then 4 else 0
  lnodup : ∀ c, (G.lines c).Nodup

/-- Nodes of a cell in the order in which `distribute_dofs` numbers them, for elements of order `k`. -/
def cellNodes (G : ECells) (k c : ℕ) : List ENode :=
  (G.vertices c).map .vertex ++ (G.lines c).flatMap (fun l => (List.range (k - 1)).map (.line l)) ++
    (List.range ((k - 1) ^ G.dm)).map (.inner c)

/-- Numbering by first visit: the node with number `m` is entry `m`. -/
def visit {α : Type} [DecidableEq α] (acc l : List α) : List α := l.foldl (fun acc x => if x ∈ acc then acc else acc ++ [x]) acc

/-- The nodes in the order of their numbers before `subdomain_wise` (bem_problem.cc:172-179), elements of order `k`. -/
def numbering (G : ECells) (k : ℕ) : List ENode := visit [] ((List.range G.nCells).flatMap (cellNodes G k))

/-- Number of nodes. -/
def nNodes (G : ECells) (k : ℕ) : ℕ := (numbering G k).length

/-- `x` is the vector of nodal values of the vector field `f` for elements of order `k`: component `d` of the node with number `m` has number
`d * nNodes + m` before `subdomain_wise`, and the place `vo2s` of it afterwards (bem_problem.cc:178-185). -/
def IsField (G : ECells) (k dim : ℕ) (vo2s : ℕ → ℕ) (f : ENode → ℕ → ℝ) (x : ℕ → ℝ) : Prop :=
  ∀ d < dim, ∀ m, ∀ h : m < nNodes G k, x (vo2s (nNodes G k * d + m)) = f ((numbering G k)[m]'h) d

/-- What the program reads as the vector (normal, gradient) at the scalar dof `i` (boundary_conditions.cc:305-312,
bem_problem.cc:1958-1981), `ks` and `kv` the two orders. -/
def readAt (G : ECells) (kv dim : ℕ) (s2o vo2s : ℕ → ℕ) (x : ℕ → ℝ) (i d : ℕ) : ℝ :=
  x (vecIndex (dim * nNodes G kv) dim s2o vo2s i d)

end PiBem.Bem
