import Verif.Expansion.Model
import Mathlib.Analysis.SpecialFunctions.Trigonometric.Inverse

/-!
# Free coefficients of the hypersingular equation

`BEMProblem<dim>::compute_hypersingular_free_coeffs` (source/bem_problem.cc:1250-1556), dimension 3, exact real arithmetic:
`hyp_alpha`, the tensor `C_ij` and the vector `b_i`. The normals at the support points of the cells are data. Divisions by
zero give 0 here and NaN in the program: the theorems exclude them where the result is used.
-/

noncomputable section

namespace PiBem.Bem

open PiBem.Expansion (V3 rho dot)

/-- `cross_product_3d`. -/
def cross (a b : V3) : V3 := ![a 1 * b 2 - a 2 * b 1, a 2 * b 0 - a 0 * b 2, a 0 * b 1 - a 1 * b 0]

/-- `v / v.norm()`. -/
def unit (v : V3) : V3 := fun d => v d / rho v

/-- Loop collecting the normals of dof `i` (bem_problem.cc:1289-1312): a normal for each local dof of each cell among whose
doubles there is `i`. `normal c j` is the normal of cell `c` at its support point `j`. -/
def nodeNormals (nCells : ℕ) (cellDofs : ℕ → List ℕ) (doubles : ℕ → Finset ℕ) (normal : ℕ → ℕ → V3) (i : ℕ) : List V3 :=
  (List.range nCells).flatMap fun c => (List.range (cellDofs c).length).flatMap fun j =>
    if i ∈ doubles ((cellDofs c).getD j 0) then [normal c j] else []

open Classical in
/-- Body of the loop on `k` (bem_problem.cc:1319-1327). -/
def uniqueStep (U : List V3) (n : V3) : List V3 :=
  if ∃ u ∈ U, rho (n - u) < 1e-5 then U else U ++ [n]

/-- `unique_normals` (bem_problem.cc:1315-1327). -/
def uniqueNormals (L : List V3) : List V3 := L.foldl uniqueStep []

/-- `average_normal` (bem_problem.cc:1329-1332). -/
def averageNormal (U : List V3) : V3 :=
  unit (U.foldl (fun s u => s + fun d => u d * (1 / (U.length : ℝ))) 0)

/-- `projection_matrix * n / (projection_matrix * n).norm()` (bem_problem.cc:1335-1342), with `projection_matrix` the
identity minus `outer_product(average_normal, average_normal)`. -/
def projected (a n : V3) : V3 :=
  unit fun d => ∑ e, (-1 * (a d * a e) + if d = e then 1 else 0) * n e

open Classical in
/-- Choice of `index` (bem_problem.cc:1363-1389): `R` is `unique_normals` paired with `unique_projected_normals`. State of
the loop: `min_sorter`, `index`. -/
def pickIndex (avg prev : V3) (R : List (V3 × V3)) : ℕ :=
  ((List.range R.length).foldl (fun (s : ℝ × ℕ) p =>
    let q := (R.getD p (0, 0)).2
    let quadrant := dot avg (cross prev q)
    let sorter := Real.arccos (dot prev q)
    if quadrant > 0 ∧ sorter < s.1 then (sorter, p) else s) (100, 0)).2

/-- The `while` loop (bem_problem.cc:1359-1396); the first argument is the number of the iterations left, `N` minus the
size of `unique_ordered_normals`. Result: the normals appended. -/
def orderLoop (avg : V3) : ℕ → V3 → List (V3 × V3) → List V3
  | 0, _, _ => []
  | m + 1, prev, R =>
    let k := pickIndex avg prev R
    let x := R.getD k (0, 0)
    x.1 :: orderLoop avg m x.2 (R.eraseIdx k)

/-- `unique_ordered_normals` (bem_problem.cc:1353-1396). For an empty list the program reads out of bounds. -/
def orderedNormals (U : List V3) : List V3 :=
  let avg := averageNormal U
  match U with
  | [] => []
  | u :: R => u :: orderLoop avg R.length (projected avg u) (R.map fun n => (n, projected avg n))

/-- `unique_tangents` (bem_problem.cc:1401-1422). -/
def tangent (O : List V3) (k : ℕ) : V3 :=
  let n := fun j => O.getD j 0
  unit (if k = 0 ∨ k = O.length then cross (n 0) (n (O.length - 1)) else cross (n k) (n (k - 1)))

/-- `geom_alpha`, stored in `hyp_alpha` (bem_problem.cc:1423-1436). -/
def geomAlpha (O : List V3) : ℝ :=
  let n := fun j => O.getD j 0
  let a := 2 * Real.pi
  let a := if O.length > 1 then
      ((List.range' 1 (O.length - 1)).foldl (fun a k => a - Real.arccos (dot (n k) (n (k - 1)))) a) -
        Real.arccos (dot (n (O.length - 1)) (n 0))
    else a
  a / (4 * Real.pi)

/-- `C_matrix`, stored in `C_ij` (bem_problem.cc:1444-1474). -/
def cMatrix (O : List V3) (i j : Fin 3) : ℝ :=
  let n := fun k => O.getD k 0
  let c := if i = j then geomAlpha O else 0
  if O.length > 1 then
    (List.range O.length).foldl (fun c k =>
      c - 1 / 4 / Real.pi * (cross (tangent O (k + 1) - tangent O k) (n k) i * n k j)) c
  else c

/-- `hyp_alpha(i)` and `C_ij(i)` from the list of normals of the dof. -/
def freeCoeffs (normals : List V3) : ℝ × (Fin 3 → Fin 3 → ℝ) :=
  let O := orderedNormals (uniqueNormals normals)
  (geomAlpha O, cMatrix O)

/-- The loop computing `b_i[d]` on one process (bem_problem.cc:1515-1549), one component: `b c j` is the result of
`evaluate_free_term_b` for the support point `j` of cell `c`, `own` tells the dofs of the process. -/
def freeB (nCells : ℕ) (cellDofs : ℕ → List ℕ) (doubles : ℕ → Finset ℕ) (b : ℕ → ℕ → ℝ) (own : ℕ → Bool) : ℕ → ℝ :=
  (List.range nCells).foldl (fun B c => (List.range (cellDofs c).length).foldl (fun B j =>
    let g := (cellDofs c).getD j 0
    if own g then ((doubles g).sort (· ≤ ·)).foldl (fun B i => Function.update B i (B i + b c j)) B else B) B) fun _ => 0

end PiBem.Bem
