import Verif.Fmm.Direct
import Verif.Rounding

/-!
# Assembly and products in floating point arithmetic

The loops that assemble the near field matrices (`direct_integrals`, source/bem_fma.cc:691-1310) and the dense matrices
(`assemble_system`, source/bem_problem.cc:754-1180), and the products with them, with a rounding error in every addition and
multiplication. The values of the kernels (multiplied by the normal), of the shape functions and of `JxW` are the numbers the
program has computed; the errors made in computing them are not considered. One kernel at a time.
-/

noncomputable section

namespace PiBem.Fmm

open PiBem.Octree PiBem.WorkStream PiBem.Rounding

/-- The numbers in the quadrature loops: for the regular points (bem_fma.cc:890-914) the value of the kernel for a node and a
point (`D * normal` or `s`), the shape functions and `JxW`; for a node in a cell the points of the singular quadrature with
the same three numbers (bem_fma.cc:978-1006). -/
structure FlData where
  kern : ℕ → ℕ × ℕ → ℝ
  shape : ℕ × ℕ → ℕ → ℝ
  jxw : ℕ × ℕ → ℝ
  sing : ℕ → ℕ → List (ℝ × (ℕ → ℝ) × ℝ)

/-- Kernel value, shape value and `JxW` of the points of a contribution, for the row of node `i` and local dof `j`. -/
def terms (Q : FlData) (i j : ℕ) : Contr → List (ℝ × ℝ × ℝ)
  | .reg c q => [(Q.kern i (c, q), Q.shape (c, q) j, Q.jxw (c, q))]
  | .sing c => (Q.sing i c).map fun p => (p.1, p.2.1 j, p.2.2)

variable {u : ℝ} (F : Fl u) (Q : FlData) (inp : Input 3)

/-- `vec_local_matrix_row_i.back()(j)` after the loop on the quadrature points (bem_fma.cc:878-914, 978-1006;
bem_problem.cc:880-1160): `row(j) += kernel * shape * JxW`, from zero. -/
def rowFl (i : ℕ) (l : List Contr) (j : ℕ) : ℝ :=
  (l.flatMap (terms Q i j)).foldl (fun x t => F.fl (x + F.fl (F.fl (t.1 * t.2.1) * t.2.2))) 0

/-- `matrix.add(i, local_dof_indices[j], row(j))` for the local dofs of a cell (bem_fma.cc:1050-1062, bem_problem.cc:1162-1173). -/
def addRowFl (i : ℕ) (r : ℕ × List Contr) (M : ℕ → ℕ → ℝ) : ℕ → ℕ → ℝ :=
  (List.range (inp.cellDofs r.1).length).foldl (fun M j =>
    let k := (inp.cellDofs r.1).getD j 0
    Function.update M i (Function.update (M i) k (F.fl (M i k + rowFl F Q i r.2 j)))) M

/-- `f_copier_direct` (bem_fma.cc:1026-1092), the loops of `copierDirect`; `add` adds a row. -/
def copierWith {σ : Type} (add : ℕ → ℕ × List Contr → σ → σ) (buf : DBuf) (M : σ) : σ :=
  (List.range buf.nodeIndex.length).foldl (fun M ii =>
    let fooStart := buf.startHelper.getD ii 0
    let fooEnd := if ii < buf.nodeIndex.length - 1 then buf.startHelper.getD (ii + 1) 0
      else buf.rows.length
    (List.range' fooStart (fooEnd - fooStart)).foldl (fun M kk =>
      add (buf.nodeIndex.getD ii 0) (buf.rows.getD kk (0, [])) M) M) M

/-- `direct_integrals` in floating point arithmetic: any execution of the two phases, from empty matrices
(bem_fma.cc:1098-1110, 1271-1295). -/
def NearFlExec (T : St 3) (own : ℕ → Bool) (M : ℕ → ℕ → ℝ) : Prop :=
  ∃ M1, Exec (fun b _ => workerLeaf inp T own b fun _ => 0) (copierWith (addRowFl F Q inp)) DBuf.empty T.childless
      (fun _ _ => 0) M1 ∧
    Levels (fun l => Exec (fun b _ => workerBig inp T own l b fun _ => 0) (copierWith (addRowFl F Q inp)) DBuf.empty
      (T.dofsFilled l)) (List.range' 1 inp.levels) M1 M

/-- The contributions of a cell to a row of the dense matrices (bem_problem.cc:858-1160). -/
def denseRow (i c : ℕ) : List Contr :=
  if isSingular inp i c then [Contr.sing c] else (List.range inp.nq).map (Contr.reg c)

/-- `assemble_system` (bem_problem.cc:754-1180) in floating point arithmetic, on the process with rows `own`. -/
def denseFl (own : ℕ → Bool) : ℕ → ℕ → ℝ :=
  (List.range inp.nCells).foldl (fun M c =>
    (List.range inp.nDofs).foldl (fun M i => if own i then addRowFl F Q inp i (c, denseRow inp i c) M else M) M)
    fun _ _ => 0

/-- Entry `i` of `matrix.vmult` with the columns taken in the order `cols`. -/
def prodFl (cols : List ℕ) (M : ℕ → ℕ → ℝ) (v : ℕ → ℝ) (i : ℕ) : ℝ :=
  cols.foldl (fun x k => F.fl (x + F.fl (M i k * v k))) 0

/-- Entry `i` of `compute_alpha`, direct method (bem_problem.cc:1563-1573). -/
def alphaFl (cols : List ℕ) (N : ℕ → ℕ → ℝ) (i : ℕ) : ℝ := prodFl F cols N (fun _ => -1) i

/-- Entry `i` of `vmult`, direct method (bem_problem.cc:1617-1624), for the potential `phi` and the normal derivative
`dphi`; `vmult_add` computes the product and adds it. -/
def vmultFl (colsN colsD : List ℕ) (N D : ℕ → ℕ → ℝ) (alpha phi dphi : ℕ → ℝ) (i : ℕ) : ℝ :=
  let dst := prodFl F colsD D dphi i
  let dst := F.fl (dst * (-1))
  let dst := F.fl (dst + prodFl F colsN N phi i)
  F.fl (dst + F.fl (phi i * alpha i))

/-! ## Exact values -/

/-- Cell of a contribution. -/
def Contr.cellOf : Contr → ℕ
  | .reg c _ => c
  | .sing c => c

/-- Local dofs of cell `c` that are dof `k`. -/
def localsOf (c k : ℕ) : List ℕ := (List.range (inp.cellDofs c).length).filter fun j => decide ((inp.cellDofs c).getD j 0 = k)

/-- What a contribution adds to the entry `(i,k)`, exactly; with `f = id` the value, with `f = |·|` the sum of the absolute
values of the terms. -/
def entryOf (f : ℝ → ℝ) (i k : ℕ) (x : Contr) : ℝ :=
  ((localsOf inp x.cellOf k).map fun j => ((terms Q i j x).map fun t => f (t.1 * t.2.1 * t.2.2)).sum).sum

end PiBem.Fmm
