import Verif.Bem.Nodes
import Verif.Bem.Gradient

/-!
# What `compute_constraints` reads at the nodes

`compute_constraints` (bem_problem.cc:1862-1880): surface gradients of `tmp_rhs` by `compute_surface_gradients`, normals by
`compute_normals` (called before by `solve_problem`, boundary_conditions.cc:178), then components read through the renumbering.
-/

noncomputable section

namespace PiBem.Bem

/-- The data of the loop over the double nodes: normals `un` and surface gradients `us` (results of the two linear systems
after `distribute`) are read at the positions `vecIndex` (bem_problem.cc:1876-1880, 1953-2028). `d` is `tmp_rhs`, of which
the surface gradients are taken too, at Dirichlet and at Neumann nodes alike. -/
def nodeData {n : ℕ} (dim nGrad : ℕ) (s2o vo2s : ℕ → ℕ) (dirichlet : Vec n) (d un us : ℕ → ℝ) (continuosGradient : Bool) :
    NodeData n dim where
  dirichlet := dirichlet
  tmpRhs := fun i => d i
  normal := fun i k => un (vecIndex nGrad dim s2o vo2s i k)
  surfGrad := fun i k => us (vecIndex nGrad dim s2o vo2s i k)
  continuosGradient := continuosGradient

end PiBem.Bem
