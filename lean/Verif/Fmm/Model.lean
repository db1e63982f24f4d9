import Verif.Octree.Lists
import Verif.WorkStream
import Mathlib.Algebra.Order.Group.Multiset
import Mathlib.Algebra.BigOperators.Group.Finset.Basic

/-!
# Model of the fast multipole matrix-vector product

Models, of source/bem_fma.cc: `direct_integrals` (691-1310), `multipole_integrals` (1752-1936),
`generate_multipole_expansions` (2024-2557), `multipole_matr_vect_products` (2571-3275), with their
`WorkStream` parallel structure and the MPI ownership tests.

The numbers are abstracted. What is added to a row of the product for a node is the *collection* of
the elementary integrals it is made of (`Contr`): the regular quadrature point `q` of cell `c`, or the
whole cell `c` integrated by the singular quadrature. An expansion is represented by the collection of
the sources it was built from, translations keep the sources, and evaluating an expansion at a node
contributes its sources. Truncation errors are thus not modelled: the model says which sources reach
which node through which operation. The two kernels have the same structure, one is modelled.
-/

namespace PiBem.Fmm

open PiBem.Octree PiBem.WorkStream

variable {d : ℕ}

/-- An elementary contribution to a row: a regular quadrature point or a cell integrated by the
singular quadrature. -/
inductive Contr
  | reg (c q : ℕ)
  | sing (c : ℕ)
  deriving DecidableEq

/-! ## Direct integrals -/

/-- `is_singular` (bem_fma.cc:864-874): one of the dofs of the cell is a double of the node. -/
def isSingular (inp : Input d) (i c : ℕ) : Bool :=
  (inp.cellDofs c).any fun j => decide (j ∈ inp.doubles i)

/-- `q` is in `directQuadPoints[c]` (bem_fma.cc:775-804, 1146-1184) for the set of blocks `S`. -/
def hasQp (T : St d) (S : Finset ℕ) (c q : ℕ) : Bool :=
  decide (∃ b ∈ S, (c, q) ∈ (T.blocks b).qps)

/-- The keys of `directQuadPoints`. -/
def directCells (inp : Input d) (T : St d) (S : Finset ℕ) : List ℕ :=
  (List.range inp.nCells).filter fun c => (List.range inp.nq).any fun q => hasQp T S c q

/-- Contributions of cell `c` to the row of node `i` in the childless worker (bem_fma.cc:859-1010):
the singular quadrature of the whole cell, or the direct quadrature points. -/
def leafRow (inp : Input d) (T : St d) (S : Finset ℕ) (i c : ℕ) : List Contr :=
  if isSingular inp i c then [Contr.sing c]
  else ((List.range inp.nq).filter fun q => hasQp T S c q).map (Contr.reg c)

/-- Contributions of cell `c` in the bigger blocks worker (bem_fma.cc:1186-1256). -/
def bigRow (inp : Input d) (T : St d) (S : Finset ℕ) (c : ℕ) : List Contr :=
  ((List.range inp.nq).filter fun q => hasQp T S c q).map (Contr.reg c)

/-- `DirectCopyData` (bem_fma.cc:692-726) and the local variable `helper_index`. An element of `rows`
stands for the elements of `vec_local_dof_indices`, `vec_local_neumann_matrix_row_i` and
`vec_local_dirichlet_matrix_row_i` of the same index: the cell and its contributions. -/
structure DBuf where
  nodeIndex : List ℕ
  startHelper : List ℕ
  rows : List (ℕ × List Contr)
  helper : ℕ

/-- An empty `DirectCopyData`. -/
def DBuf.empty : DBuf := ⟨[], [], [], 0⟩

/-- The five `resize(0)` and `helper_index = 0` (bem_fma.cc:746-750, 813; 1120-1130). -/
def DBuf.reset (b : DBuf) : DBuf :=
  { b with nodeIndex := [], startHelper := [], rows := [], helper := 0 }

/-- `vec_node_index.push_back(nodeIndex); vec_start_helper.push_back(helper_index)`. -/
def DBuf.pushNode (b : DBuf) (i : ℕ) : DBuf :=
  { b with nodeIndex := b.nodeIndex ++ [i], startHelper := b.startHelper ++ [b.helper] }

/-- One cell done: row pushed, `helper_index += 1`. -/
def DBuf.pushRow (b : DBuf) (r : ℕ × List Contr) : DBuf :=
  { b with rows := b.rows ++ [r], helper := b.helper + 1 }

/-- `f_worker_direct_childless_non_int_list` (bem_fma.cc:735-1020). `own i` is
`this_cpu_set.is_element(i)`. -/
def workerLeaf (inp : Input d) (T : St d) (own : ℕ → Bool) (b : ℕ)
    (_ : ℕ → Multiset Contr) (buf : DBuf) : DBuf :=
  let S := intList inp T b (numSub inp T b - 1)
  (T.blocks b).nodes.foldl (fun buf i =>
    if own i then
      (directCells inp T S).foldl (fun buf c => buf.pushRow (c, leafRow inp T S i c)) (buf.pushNode i)
    else buf) buf.reset

/-- Blocks of the non interaction lists treated directly, `[begin, lower_bound(startBlockLevel))`, on
all the sublevels (bem_fma.cc:1146-1163). -/
def bigSet (inp : Input d) (T : St d) (start k : ℕ) : Finset ℕ :=
  (Finset.range (numSub inp T k)).biUnion fun s => (nonIntList inp T k s).filter (· < start)

/-- `f_worker_direct_bigger_blocks` (bem_fma.cc:1114-1267); nodes are pushed also when not owned. -/
def workerBig (inp : Input d) (T : St d) (own : ℕ → Bool) (level : ℕ) (b : ℕ)
    (_ : ℕ → Multiset Contr) (buf : DBuf) : DBuf :=
  let S := bigSet inp T (T.startLevel level) b
  (T.blocks b).nodes.foldl (fun buf i =>
    let buf := buf.pushNode i
    if own i then
      (directCells inp T S).foldl (fun buf c => buf.pushRow (c, bigRow inp T S c)) buf
    else buf) buf.reset

/-- `prec_matrix.add(row, ..)` for one buffered cell row (bem_fma.cc:1056-1070). -/
def addRow (i : ℕ) (r : ℕ × List Contr) (M : ℕ → Multiset Contr) : ℕ → Multiset Contr :=
  Function.update M i (M i + r.2)

/-- `f_copier_direct` (bem_fma.cc:1026-1092): for the node `ii` of the buffer the rows from
`vec_start_helper[ii]` to `vec_start_helper[ii + 1]` (or to the end for the last node). -/
def copierDirect (buf : DBuf) (M : ℕ → Multiset Contr) : ℕ → Multiset Contr :=
  (List.range buf.nodeIndex.length).foldl (fun M ii =>
    let fooStart := buf.startHelper.getD ii 0
    let fooEnd := if ii < buf.nodeIndex.length - 1 then buf.startHelper.getD (ii + 1) 0
      else buf.rows.length
    (List.range' fooStart (fooEnd - fooStart)).foldl (fun M kk =>
      addRow (buf.nodeIndex.getD ii 0) (buf.rows.getD kk (0, [])) M) M) M

/-- Sequence of the runs of a loop on levels. -/
inductive Levels {σ : Type} (R : ℕ → σ → σ → Prop) : List ℕ → σ → σ → Prop
  | nil (s : σ) : Levels R [] s s
  | cons {l : ℕ} {ls : List ℕ} {s s' s'' : σ} : R l s s' → Levels R ls s' s'' →
      Levels R (l :: ls) s s''

/-- `direct_integrals` (bem_fma.cc:1098-1110, 1271-1295): any execution of the two phases, from
empty matrices. -/
def DirectExec (inp : Input d) (T : St d) (own : ℕ → Bool) (M : ℕ → Multiset Contr) : Prop :=
  ∃ M1, Exec (workerLeaf inp T own) copierDirect DBuf.empty T.childless (fun _ => 0) M1 ∧
    Levels (fun l => Exec (workerBig inp T own l) copierDirect DBuf.empty (T.dofsFilled l))
      (List.range' 1 inp.levels) M1 M

/-! ## Multipole moments and ascending phase -/

/-- `elemMultipoleExpansionsKer`: `map<blockId, map<cell, expansions>>`; an expansion is the
collection of its sources. -/
abbrev Moments := ℕ → Option (ℕ → Multiset (ℕ × ℕ))

/-- Sources of block `b` in cell `c`: the loop on `cellQuadPoints` (bem_fma.cc:1862-1884). -/
def cellMoment (T : St d) (b c : ℕ) : Multiset (ℕ × ℕ) :=
  (((T.blocks b).qps.filter fun q => decide (q.1 = c) : List (ℕ × ℕ)) : Multiset (ℕ × ℕ))

/-- The cells with quadrature points in the block: keys of `GetBlockQuadPointsList()`. -/
def blockCells (inp : Input d) (T : St d) (b : ℕ) : List ℕ :=
  (List.range inp.nCells).filter fun c => (T.blocks b).qps.any fun q => decide (q.1 = c)

/-- `f_worker_multipole_integral` (bem_fma.cc:1820-1887): the entries of the cells of the block are
created in the (recycled, never cleaned) local map, reset to an empty expansion and filled. -/
def workerMoments (inp : Input d) (T : St d) (b : ℕ) (_ : Moments) (buf : Moments) : Moments :=
  (blockCells inp T b).foldl (fun buf c =>
    Function.update buf b (some (Function.update ((buf b).getD fun _ => 0) c (cellMoment T b c)))) buf

/-- `f_copier_multipole_integral` (bem_fma.cc:1890-1897): `std::map::insert(begin, end)` does not
change the keys already present. -/
def copierMoments (buf : Moments) (E : Moments) : Moments := fun b => (E b).or (buf b)

/-- `multipole_integrals` (bem_fma.cc:1899-1907). -/
def MomentsExec (inp : Input d) (T : St d) (E : Moments) : Prop :=
  Exec (workerMoments inp T) copierMoments (fun _ => none) T.childless (fun _ => none) E

/-- `f_childless_creation_tbb` (bem_fma.cc:2119-2176) on one childless block: the block expansion gets
the expansions of its cells. -/
def leafMult (inp : Input d) (T : St d) (E : Moments) (b : ℕ) (mult : ℕ → Multiset (ℕ × ℕ)) :
    ℕ → Multiset (ℕ × ℕ) :=
  (blockCells inp T b).foldl (fun m c =>
    Function.update m b (m b + ((E b).getD fun _ => 0) c)) mult

/-- `AscendCopyData` (bem_fma.cc:2319-2360): parent and translated expansion. -/
structure ABuf where
  parentId : ℕ
  expn : Multiset (ℕ × ℕ)

/-- `f_worker_ascend` (bem_fma.cc:2363-2399): reset, then the translated expansion of the block. -/
def workerAscend (T : St d) (b : ℕ) (mult : ℕ → Multiset (ℕ × ℕ)) (_ : ABuf) : ABuf :=
  ⟨(T.blocks b).parent, 0 + mult b⟩

/-- `f_copier_ascend` (bem_fma.cc:2401-2416). -/
def copierAscend (buf : ABuf) (mult : ℕ → Multiset (ℕ × ℕ)) : ℕ → Multiset (ℕ × ℕ) :=
  Function.update mult buf.parentId (mult buf.parentId + buf.expn)

/-- `generate_multipole_expansions` (bem_fma.cc:2024-2557): creation of the empty expansions, leaves
(`parallel_for`, in any order), then the levels from the last one to 1. The run on an empty level
(`endLevel < startLevel`) is skipped; `levelIds` is empty in that case. -/
def AscendExec (inp : Input d) (T : St d) (E : Moments) (mult : ℕ → Multiset (ℕ × ℕ)) : Prop :=
  ∃ order : List ℕ, order.Perm T.childless ∧
    Levels (fun l => Exec (workerAscend T) copierAscend ⟨0, 0⟩ (T.levelIds l))
      (List.range' 1 inp.levels).reverse
      (order.foldl (fun m b => leafMult inp T E b m) fun _ => 0) mult

/-! ## Descending phase -/

/-- The search of the level of a block (bem_fma.cc:2753-2764). -/
def levelOf (inp : Input d) (T : St d) (b : ℕ) : ℕ :=
  ((List.range (inp.levels + 1)).find? fun l =>
    decide (T.startLevel l ≤ b) && decide (b ≤ T.endLevel l)).getD 0

/-- Sources of a set of blocks, through their multipole expansions. -/
def gather (mult : ℕ → Multiset (ℕ × ℕ)) (S : Finset ℕ) : Multiset (ℕ × ℕ) := ∑ b ∈ S, mult b

/-- Blocks converted to local expansions: `[lower_bound(start), upper_bound(end))` of the non
interaction list of one sublevel (bem_fma.cc:2816-2824). -/
def m2lSet (inp : Input d) (T : St d) (k s : ℕ) : Finset ℕ :=
  (nonIntList inp T k s).filter fun b =>
    T.startLevel (levelOf inp T k) ≤ b ∧ b ≤ T.endLevel (levelOf inp T k)

/-- Blocks whose multipole expansion is evaluated at the nodes: `[upper_bound(end), end)`
(bem_fma.cc:2861-2866). -/
def m2pSet (inp : Input d) (T : St d) (k s : ℕ) : Finset ℕ :=
  (nonIntList inp T k s).filter fun b => T.endLevel (levelOf inp T k) < b

/-- Local expansions of the blocks and product vector (the part added by the expansions). -/
structure DSt where
  loc : ℕ → Multiset (ℕ × ℕ)
  prod : ℕ → Multiset (ℕ × ℕ)

/-- `DescendCopyData` (bem_fma.cc:2683-2722); `contr` is `matrVectorProductContribution`, indexed like
`nodes`. -/
structure DescBuf where
  blockId : ℕ
  expn : Multiset (ℕ × ℕ)
  nodes : List ℕ
  contr : List (Multiset (ℕ × ℕ))

/-- `f_worker_Descend` (bem_fma.cc:2733-2914). The buffer is reset (2751-2752, 2780-2782); nothing is
added if no node of the block is owned. -/
def workerDescend (inp : Input d) (T : St d) (own : ℕ → Bool) (mult : ℕ → Multiset (ℕ × ℕ)) (k : ℕ)
    (s : DSt) (_ : DescBuf) : DescBuf :=
  let nodes := (T.blocks k).nodes
  let onProcess := nodes.any own
  { blockId := k
    expn := if onProcess then
        0 + s.loc (T.blocks k).parent +
          ∑ sub ∈ Finset.range (numSub inp T k), gather mult (m2lSet inp T k sub)
      else 0
    nodes := nodes
    contr := nodes.map fun _ => if onProcess then
        ∑ sub ∈ Finset.range (numSub inp T k), gather mult (m2pSet inp T k sub) else 0 }

/-- `f_copier_Descend` (bem_fma.cc:2919-2933). -/
def copierDescend (buf : DescBuf) (s : DSt) : DSt where
  loc := Function.update s.loc buf.blockId (s.loc buf.blockId + buf.expn)
  prod := (buf.nodes.zip buf.contr).foldl (fun p x => Function.update p x.1 (p x.1 + x.2)) s.prod

/-- The loop on levels of the descending phase (bem_fma.cc:2935-2966), from empty local expansions
(2614-2635); `prod` starts from zero: the direct part is added in `FmmExec`. -/
def DescendExec (inp : Input d) (T : St d) (own : ℕ → Bool) (mult : ℕ → Multiset (ℕ × ℕ)) (s : DSt) :
    Prop :=
  Levels (fun l => Exec (workerDescend inp T own mult) copierDescend ⟨0, 0, [], []⟩ (T.dofsFilled l))
    (List.range' 1 inp.levels) ⟨fun _ => 0, fun _ => 0⟩ s

/-- `f_local_evaluation_tbb` on one childless block (bem_fma.cc:3166-3192): owned nodes get the local
expansion of the block. -/
def evalLeaf (T : St d) (own : ℕ → Bool) (loc : ℕ → Multiset (ℕ × ℕ)) (b : ℕ)
    (prod : ℕ → Multiset (ℕ × ℕ)) : ℕ → Multiset (ℕ × ℕ) :=
  (T.blocks b).nodes.foldl (fun p i =>
    if own i then Function.update p i (p i + loc b) else p) prod

/-- One matrix-vector product on the process owning the rows `own`: `out i` is the collection of the
contributions accumulated in entry `i`: direct part (bem_fma.cc:2590-2591) and expansions
(`parallel_for` over the leaves in any order, 3195-3198). -/
def FmmExec (inp : Input d) (T : St d) (own : ℕ → Bool) (out : ℕ → Multiset Contr) : Prop :=
  ∃ M E mult s order, DirectExec inp T own M ∧ MomentsExec inp T E ∧ AscendExec inp T E mult ∧
    DescendExec inp T own mult s ∧ List.Perm order T.childless ∧
    out = fun i => M i + ((order.foldl (fun p b => evalLeaf T own s.loc b p) s.prod) i).map
      fun q => Contr.reg q.1 q.2

end PiBem.Fmm
