import Mathlib.Analysis.SpecialFunctions.Pow.Real
import Mathlib.Algebra.BigOperators.Group.Finset.Basic

/-!
# Error report

`BoundaryConditions<dim>::compute_errors` (source/boundary_conditions.cc:345-543), the part of process 0: nodal errors and
the six numbers printed. Exact real arithmetic. The files written are not modelled, the vectors put in them are.
-/

noncomputable section

namespace PiBem.App

/-- What `compute_errors` reads: `dim`, `dh.n_dofs()`, the localized vectors `phi`, `dphi_dn`, `vector_gradients_solution`
and `vector_normals_solution`, the values of the functions `potential` and `wind` at the support points (by dof), the arrays
`original_to_sub_wise` and `vec_original_to_sub_wise`; for `integrate_difference` the cells with points, `JxW` and, at each
point, shape functions of the scalar and of the vector element (dof, value; for the vector element also the component) and
values of `potential` and `wind`. -/
structure ErrInput where
  dim : ℕ
  n : ℕ
  phi : ℕ → ℝ
  dphi : ℕ → ℝ
  grad : ℕ → ℝ
  normals : ℕ → ℝ
  pot : ℕ → ℝ
  wind : ℕ → ℕ → ℝ
  o2s : ℕ → ℕ
  vo2s : ℕ → ℕ
  nCells : ℕ
  nq : ℕ
  jxw : ℕ → ℕ → ℝ
  basis : ℕ → ℕ → List (ℕ × ℝ)
  vbasis : ℕ → ℕ → ℕ → List (ℕ × ℝ)
  potQ : ℕ → ℕ → ℝ
  windQ : ℕ → ℕ → ℕ → ℝ

variable (E : ErrInput)

/-- `phi_node_error` (boundary_conditions.cc:438-445). -/
def phiNodeError (i : ℕ) : ℝ :=
  let v := (List.range E.n).foldl (fun (v : ℕ → ℝ) i => Function.update v i (E.pot i)) fun _ => 0
  v i * -1 + 1 * E.phi i

/-- `vector_gradients_node_error` (boundary_conditions.cc:425-436). -/
def gradNodeError (k : ℕ) : ℝ :=
  let v := (List.range E.dim).foldl (fun (v : ℕ → ℝ) d => (List.range E.n).foldl (fun v i =>
    Function.update v (E.vo2s (d * E.n + i)) (E.wind (E.o2s i) d)) v) fun _ => 0
  v k * -1 + 1 * E.grad k

/-- `dphi_dn_node_error` (boundary_conditions.cc:447-465). -/
def dphiNodeError (j : ℕ) : ℝ :=
  let v := (List.range E.n).foldl (fun (v : ℕ → ℝ) i => (List.range E.dim).foldl (fun v d =>
    Function.update v (E.o2s i) (v (E.o2s i) + E.normals (E.vo2s (i + d * E.n)) * E.wind (E.o2s i) d)) v) fun _ => 0
  v j * -1 + 1 * E.dphi j

/-- `Vector::linfty_norm()` of the first `m` entries. -/
def linfty (m : ℕ) (v : ℕ → ℝ) : ℝ := (List.range m).foldl (fun x i => max x |v i|) 0

/-- `Vector::l2_norm()`. -/
def l2 (m : ℕ) (v : ℕ → ℝ) : ℝ := Real.sqrt ((List.range m).foldl (fun x i => x + v i * v i) 0)

/-- Value at a point of the finite element function with coefficients `v`. -/
def valueAt (b : List (ℕ × ℝ)) (v : ℕ → ℝ) : ℝ := (b.map fun js => v js.1 * js.2).sum

/-- `VectorTools::integrate_difference(..., L2_norm)`, scalar: the entry of cell `c` (library contract). -/
def cellError (v : ℕ → ℝ) (f : ℕ → ℕ → ℝ) (c : ℕ) : ℝ :=
  Real.sqrt (∑ q ∈ Finset.range E.nq, (valueAt (E.basis c q) v - f c q) ^ 2 * E.jxw c q)

/-- `VectorTools::integrate_difference(..., L2_norm)`, vector valued. -/
def cellVecError (v : ℕ → ℝ) (f : ℕ → ℕ → ℕ → ℝ) (c : ℕ) : ℝ :=
  Real.sqrt (∑ q ∈ Finset.range E.nq,
    (∑ d ∈ Finset.range E.dim, (valueAt (E.vbasis c q d) v - f c q d) ^ 2) * E.jxw c q)

/-- The six numbers printed (boundary_conditions.cc:480-500), with their labels. -/
structure Report where
  /-- "Phi Nodes error L_inf norm" -/
  phiLinf : ℝ
  /-- "Phi Cells error L_2 norm" -/
  phiL2 : ℝ
  /-- "dPhidN Nodes error L_inf norm" -/
  dphiLinf : ℝ
  /-- "dPhidN Nodes error L_2 norm" -/
  dphiL2 : ℝ
  /-- "Phi Nodes Gradient error L_inf norm" -/
  gradLinf : ℝ
  /-- "Phi Cells Gradient  error L_2 norm" -/
  gradL2 : ℝ

/-- `compute_errors` (boundary_conditions.cc:399-500). `phi_max_error` is `difference_per_cell.linfty_norm()`, line 409. -/
def report : Report :=
  let diff := cellError E E.phi E.potQ
  let gdiff := cellVecError E E.grad E.windQ
  { phiLinf := linfty E.nCells diff
    phiL2 := l2 E.nCells diff
    dphiLinf := linfty E.n (dphiNodeError E)
    dphiL2 := l2 E.nCells (cellError E (dphiNodeError E) fun _ _ => 0)
    gradLinf := linfty (E.dim * E.n) (gradNodeError E)
    gradL2 := l2 E.nCells gdiff }

end PiBem.App
