import Verif.Props.Fmm
import Verif.Props.Geometry
import Verif.Props.Multipole
import Verif.Kernel.Laplace

/-!
# The fast multipole product with numbers

Same functions of source/bem_fma.cc as `Verif.Fmm.Model`, now with the expansions of `Verif.Expansion.Model` and real
values instead of collections of sources. Exact real arithmetic; positions of nodes and quadrature points are the rational
ones of `Input`. The two kernels are treated one at a time (the code handles the pair in the same loops, without
interaction): `double` is `Ker1` (`AddNormDer`, multiplied by `phi`), `single` is `Ker2` (`Add`, multiplied by `dphi_dn`).
The direct part reuses `DirectExec`: an entry of the two sparse matrices is a sum of elementary contributions, and the
product of a row with a vector is the sum of the products of its contributions.
-/

noncomputable section

namespace PiBem.Fmm

open PiBem.Octree PiBem.WorkStream PiBem.Expansion

/-- The two kernels. -/
inductive Ker
  | single
  | double

/-- What the product reads besides the mesh: `trunc_order`, `quadShapeFunValues`, `quadJxW`, `quadNormals`
(bem_fma.cc:1862-1884), the entries computed by the singular quadrature of a cell (bem_fma.cc:934-1006; arguments:
node, cell, local dof), the vector multiplied. -/
structure Data where
  p : ℕ
  shape : ℕ × ℕ → ℕ → ℝ
  jxw : ℕ × ℕ → ℝ
  normal : ℕ × ℕ → V3
  sing : ℕ → ℕ → ℕ → ℝ
  sol : ℕ → ℝ

/-- Rational points as real ones. -/
def toV (x : Pt 3) : V3 := fun a => (x a : ℝ)

/-- `blockCenter` (bem_fma.cc:1828-1832). -/
def ctr (T : St 3) (b : ℕ) : V3 := toV (centre (T.blocks b))

variable (inp : Input 3) (D : Data) (ker : Ker)

/-! ## Direct part -/

/-- Entry of the matrix of the kernel for node `i` and local dof `j` of the cell, from one regular quadrature point
(bem_fma.cc:884-914 and 1216-1240): `R = q - x`, `LaplaceKernel::kernels(R, D, s)`. -/
def regEntry (i : ℕ) (q : ℕ × ℕ) (j : ℕ) : ℝ :=
  let R : V3 := toV (inp.qpos q) - toV (inp.pos i)
  match ker with
  | .double => dot (Kernel.kernels3 R).1 (D.normal q) * D.shape q j * D.jxw q
  | .single => (Kernel.kernels3 R).2 * D.shape q j * D.jxw q

/-- Product of the row contributions of one cell with the vector: `sum_j row(j) * sol(local_dof_indices[j])`. -/
def cellDot (c : ℕ) (row : ℕ → ℝ) : ℝ :=
  ∑ j ∈ Finset.range (inp.cellDofs c).length, row j * D.sol ((inp.cellDofs c).getD j 0)

/-- Value of an elementary contribution to the row of node `i`. -/
def val (i : ℕ) : Contr → ℝ
  | .reg c q => cellDot inp D c (regEntry inp D ker i (c, q))
  | .sing c => cellDot inp D c (D.sing i c)

/-- `prec_neumann_matrix.vmult`, `prec_dirichlet_matrix.vmult` (bem_fma.cc:2590-2591). -/
def direct (M : ℕ → Multiset Contr) (i : ℕ) : ℝ := ((M i).map (val inp D ker i)).sum

/-! ## Element moments -/

/-- One quadrature point added to the expansion of local dof `j` (bem_fma.cc:1869-1882). -/
def elemAdd (e : Exp) (j : ℕ) (q : ℕ × ℕ) : Exp :=
  let s := D.shape q j * D.jxw q / 4 / Real.pi
  match ker with
  | .double => mAddNormDer codeTable e s (toV (inp.qpos q)) (D.normal q)
  | .single => mAddSource codeTable e s (toV (inp.qpos q))

/-- The expansion of cell `c` of block `b` for local dof `j`: new expansion, then the quadrature points of the cell in
the block (bem_fma.cc:1851-1884). -/
def nCellMoment (T : St 3) (b c j : ℕ) : Exp :=
  ((T.blocks b).qps.filter fun q => decide (q.1 = c)).foldl (fun e q => elemAdd inp D ker e j q) (Exp.new D.p (ctr T b))

/-- `elemMultipoleExpansionsKer1`, `elemMultipoleExpansionsKer2`: block, cell, local dof. -/
abbrev NMoments := ℕ → Option (ℕ → ℕ → Exp)

/-- `f_worker_multipole_integral` (bem_fma.cc:1820-1887). The entries of a new cell are created and overwritten; cells
not yet present in the map of the block read as new expansions. -/
def nWorkerMoments (T : St 3) (b : ℕ) (_ : NMoments) (buf : NMoments) : NMoments :=
  (blockCells inp T b).foldl (fun buf c =>
    Function.update buf b (some (Function.update ((buf b).getD fun _ _ => Exp.new D.p (ctr T b)) c
      (nCellMoment inp D ker T b c)))) buf

/-- `f_copier_multipole_integral` (bem_fma.cc:1890-1897). -/
def nCopierMoments (buf E : NMoments) : NMoments := fun b => (E b).or (buf b)

/-- `multipole_integrals` (bem_fma.cc:1899-1915). -/
def NMomentsExec (T : St 3) (E : NMoments) : Prop :=
  Exec (nWorkerMoments inp D ker T) nCopierMoments (fun _ => none) T.childless (fun _ => none) E

/-! ## Ascending phase -/

/-- The expansions of one cell added to the expansion of the block, multiplied by the values of the vector
(bem_fma.cc:2266-2276). -/
def nLeafCell (T : St 3) (E : NMoments) (b c : ℕ) (e : Exp) : Exp :=
  (List.range (inp.cellDofs c).length).foldl (fun e j =>
    mAddScaled e (((E b).getD fun _ _ => Exp.new D.p (ctr T b)) c j) (D.sol ((inp.cellDofs c).getD j 0))) e

/-- `f_childless_creation_tbb` on one childless block (bem_fma.cc:2225-2280). -/
def nLeafMult (T : St 3) (E : NMoments) (b : ℕ) (mult : ℕ → Exp) : ℕ → Exp :=
  (blockCells inp T b).foldl (fun m c => Function.update m b (nLeafCell inp D T E b c (m b))) mult

/-- `AscendCopyData` (bem_fma.cc:2398-2437). -/
structure NABuf where
  parentId : ℕ
  expn : Exp

/-- `f_worker_ascend` (bem_fma.cc:2440-2482). -/
def nWorkerAscend (T : St 3) (b : ℕ) (mult : ℕ → Exp) (_ : NABuf) : NABuf :=
  let parent := (T.blocks b).parent
  ⟨parent, mAddChild codeTable (Exp.new D.p (mult parent).center) (mult b)⟩

/-- `f_copier_ascend` (bem_fma.cc:2486-2495). -/
def nCopierAscend (buf : NABuf) (mult : ℕ → Exp) : ℕ → Exp :=
  Function.update mult buf.parentId (mAddChild codeTable (mult buf.parentId) buf.expn)

/-- `generate_multipole_expansions` (bem_fma.cc:2136-2557): new expansions at the centres of the blocks (2169-2186),
leaves in any order, levels from the last one to 1. -/
def NAscendExec (T : St 3) (E : NMoments) (mult : ℕ → Exp) : Prop :=
  ∃ order : List ℕ, order.Perm T.childless ∧
    Levels (fun l => Exec (nWorkerAscend D T) nCopierAscend ⟨0, Exp.new D.p 0⟩ (T.levelIds l))
      (List.range' 1 inp.levels).reverse
      (order.foldl (fun m b => nLeafMult inp D T E b m) fun b => Exp.new D.p (ctr T b)) mult

/-! ## Descending phase -/

/-- Local expansions and product vector. -/
structure NDSt where
  loc : ℕ → Exp
  prod : ℕ → ℝ

/-- `DescendCopyData` (bem_fma.cc:2688-2727). -/
structure NDescBuf where
  blockId : ℕ
  expn : Exp
  nodes : List ℕ
  contr : List ℝ

/-- `f_worker_Descend` (bem_fma.cc:2733-2914): sets are visited in increasing order. -/
def nWorkerDescend (T : St 3) (own : ℕ → Bool) (mult : ℕ → Exp) (k : ℕ) (s : NDSt) (_ : NDescBuf) : NDescBuf :=
  let nodes := (T.blocks k).nodes
  let onProcess := nodes.any own
  let dummy := Exp.new D.p (s.loc k).center
  { blockId := k
    expn := if onProcess then
        (List.range (numSub inp T k)).foldl (fun e sub =>
          ((m2lSet inp T k sub).sort (· ≤ ·)).foldl (fun e b => lAddMultipole codeTable e (mult b)) e)
          (lAddParent codeTable dummy (s.loc (T.blocks k).parent))
      else dummy
    nodes := nodes
    contr := nodes.map fun i => if onProcess then
        ∑ sub ∈ Finset.range (numSub inp T k), ∑ b ∈ m2pSet inp T k sub, mEval codeTable (mult b) (toV (inp.pos i))
      else 0 }

/-- `f_copier_Descend` (bem_fma.cc:2919-2933). -/
def nCopierDescend (buf : NDescBuf) (s : NDSt) : NDSt where
  loc := Function.update s.loc buf.blockId (lAddParent codeTable (s.loc buf.blockId) buf.expn)
  prod := (buf.nodes.zip buf.contr).foldl (fun p x => Function.update p x.1 (p x.1 + x.2)) s.prod

/-- The loop on levels (bem_fma.cc:2935-2966), from new local expansions at the centres (2614-2635) and from the direct
part. -/
def NDescendExec (T : St 3) (own : ℕ → Bool) (mult : ℕ → Exp) (base : ℕ → ℝ) (s : NDSt) : Prop :=
  Levels (fun l => Exec (nWorkerDescend inp D T own mult) nCopierDescend ⟨0, Exp.new D.p 0, [], []⟩ (T.dofsFilled l))
    (List.range' 1 inp.levels) ⟨fun b => Exp.new D.p (ctr T b), base⟩ s

/-- `f_local_evaluation_tbb` on one childless block (bem_fma.cc:3166-3192). -/
def nEvalLeaf (T : St 3) (own : ℕ → Bool) (loc : ℕ → Exp) (b : ℕ) (prod : ℕ → ℝ) : ℕ → ℝ :=
  (T.blocks b).nodes.foldl (fun p i =>
    if own i then Function.update p i (p i + lEval codeTable (loc b) (toV (inp.pos i))) else p) prod

/-- `direct_integrals` and `multipole_integrals`, then `generate_multipole_expansions` and `multipole_matr_vect_products`
on the process owning the rows `own`: `out` is the vector produced. -/
def NFmmExec (T : St 3) (own : ℕ → Bool) (out : ℕ → ℝ) : Prop :=
  ∃ M E mult s order, DirectExec inp T own M ∧ NMomentsExec inp D ker T E ∧ NAscendExec inp D T E mult ∧
    NDescendExec inp D T own mult (direct inp D ker M) s ∧ List.Perm order T.childless ∧
    out = order.foldl (fun p b => nEvalLeaf inp T own s.loc b p) s.prod

end PiBem.Fmm
