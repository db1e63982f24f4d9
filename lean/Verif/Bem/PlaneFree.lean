import Verif.Bem.Plane
import Verif.Bem.FreeCoeffs

/-!
# Free coefficients in dimension 2

`BEMProblem<2>::compute_hypersingular_free_coeffs` (source/bem_problem.cc:1250-1556), called by every `solve` (line 1716). As in `Bem/FreeCoeffs`, the normals at
the support points of the cells are data; divisions by zero give 0 here and NaN in the program, but only in variables that are not used.
-/

noncomputable section

namespace PiBem.Bem.Plane

/-- Scalar product. -/
def dot2 (a b : V2) : ℝ := ∑ d, a d * b d

/-- `cross_product_2d`: the vector turned clockwise by a right angle. -/
def perp (v : V2) : V2 := ![v 1, -v 0]

/-- `v / v.norm()`. -/
def unit2 (v : V2) : V2 := fun d => v d / Kernel.norm v

/-- Loop collecting the normals of dof `i` (bem_problem.cc:1289-1312). -/
def nodeNormals2 (nCells : ℕ) (cellDofs : ℕ → List ℕ) (doubles : ℕ → Finset ℕ) (normal : ℕ → ℕ → V2) (i : ℕ) : List V2 :=
  (List.range nCells).flatMap fun c => (List.range (cellDofs c).length).flatMap fun j =>
    if i ∈ doubles ((cellDofs c).getD j 0) then [normal c j] else []

open Classical in
/-- Body of the loop on `k` (bem_problem.cc:1319-1327). -/
def uniqueStep2 (U : List V2) (n : V2) : List V2 :=
  if ∃ u ∈ U, Kernel.norm (n - u) < 1e-5 then U else U ++ [n]

/-- `unique_normals` (bem_problem.cc:1315-1327). -/
def uniqueNormals2 (L : List V2) : List V2 := L.foldl uniqueStep2 []

/-- The `while` loop (bem_problem.cc:1359-1396): in dimension 2 the inner loop sets `sorter` only (lines 1380-1385), so that `index` is 0 in every iteration. The
first argument is the number of the iterations left. -/
def orderLoop2 : ℕ → List V2 → List V2
  | 0, _ => []
  | m + 1, R => R.getD 0 0 :: orderLoop2 m (R.eraseIdx 0)

/-- `unique_ordered_normals` (bem_problem.cc:1353-1396). For an empty list the program reads out of bounds. -/
def orderedNormals2 (U : List V2) : List V2 :=
  match U with
  | [] => []
  | u :: R => u :: orderLoop2 R.length R

/-- `unique_tangents` (bem_problem.cc:1401-1422). -/
def tangent2 (O : List V2) (k : ℕ) : V2 :=
  unit2 (if k = 0 ∨ k = O.length then perp (O.getD 0 0) else perp (O.getD k 0))

/-- `geom_alpha`, stored in `hyp_alpha` (bem_problem.cc:1423-1436). -/
def geomAlpha2 (O : List V2) : ℝ :=
  let n := fun j => O.getD j 0
  let a := 2 * Real.pi
  let a := if O.length > 1 then
      ((List.range' 1 (O.length - 1)).foldl (fun a k => a - Real.arccos (dot2 (n k) (n (k - 1)))) a) -
        Real.arccos (dot2 (n (O.length - 1)) (n 0))
    else a
  a / (4 * Real.pi)

/-- `C_matrix`, stored in `C_ij` (bem_problem.cc:1444-1474). The factor `1 / 2 / numbers::PI` (line 1463) begins with a division of integers. -/
def cMatrix2 (O : List V2) (i j : Fin 2) : ℝ :=
  let c := if i = j then geomAlpha2 O else 0
  if O.length > 1 then
    (List.range O.length).foldl (fun c k => c - (((1 : ℤ) / (2 : ℤ) : ℤ) : ℝ) / Real.pi * (tangent2 O k i * (O.getD k 0) j)) c
  else c

/-- `hyp_alpha(i)` and `C_ij(i)` from the list of normals of the dof. -/
def freeCoeffs2 (normals : List V2) : ℝ × (Fin 2 → Fin 2 → ℝ) :=
  let O := orderedNormals2 (uniqueNormals2 normals)
  (geomAlpha2 O, cMatrix2 O)

/-- `SingularKernelIntegral<2>::evaluate_free_term_b` (singular_kernel_integral.cc:1220-1228): `ExcNotImplemented();` makes an exception object and throws nothing;
the tensor returned is zero. -/
def freeTermB2 (_cell _localDof : ℕ) : V2 := fun _ => 0

/-- `b_i[d]` on one process (bem_problem.cc:1515-1549). -/
def freeB2 (nCells : ℕ) (cellDofs : ℕ → List ℕ) (doubles : ℕ → Finset ℕ) (own : ℕ → Bool) (d : Fin 2) : ℕ → ℝ :=
  freeB nCells cellDofs doubles (fun c j => freeTermB2 c j d) own

end PiBem.Bem.Plane
