import Mathlib.Data.Rat.Defs
import Mathlib.Algebra.Order.Ring.Rat
import Mathlib.Algebra.Order.Round
import Mathlib.Algebra.BigOperators.Group.List.Basic
import Mathlib.Data.Fin.VecNotation
import Mathlib.Data.Finset.Basic
import Mathlib.Data.Finset.Card
import Mathlib.Data.Rat.Floor

/-!
# Model of the octree construction

Models `BEMFMA<dim>::generate_octree_blocking`, source/bem_fma.cc:3852-4540, together with the
parts of `OctreeBlock<dim>` (source/octree_block.cc) it uses.

Simplifications, common to the whole file:
* coordinates are exact rationals instead of `double`;
* the mesh, the mapping and the finite element are replaced by an arbitrary `Input`: positions of
  the support points, positions of the quadrature points, dofs of each cell, double nodes;
* `std::map<cell, vector<q>>` of quadrature points of a block is modelled by the list of the pairs
  `(cell, q)`;
* `unsigned int` is `ℕ`.
-/

namespace PiBem.Octree

/-- deal.II `Point<dim>` with exact rational coordinates. -/
abbrev Pt (d : ℕ) := Fin d → ℚ

/-- Everything `generate_octree_blocking` reads: support points (bem_fma.cc:3858), quadrature points
(3964), dofs of the cells (3988), `double_nodes_set` (4453), `num_octree_levels` and
`max_num_nodes_per_block` (parameters, bem_fma.cc:94-120). Cells are numbered `0..nCells-1`, every
cell has `nq` quadrature points (same `QGauss` rule, 3864). -/
structure Input (d : ℕ) where
  nDofs : ℕ
  pos : ℕ → Pt d
  nCells : ℕ
  nq : ℕ
  qpos : ℕ × ℕ → Pt d
  cellDofs : ℕ → List ℕ
  doubles : ℕ → Finset ℕ
  levels : ℕ
  maxNodes : ℕ
  /-- what earlier calls left in `dof_to_elems[i]`: the map is never cleared (only `compute_geometry_cache`,
  which nothing calls, clears it, bem_fma.cc:3689). A number `≥ nCells` is a cell that is not active any more. -/
  oldElems : ℕ → List ℕ := fun _ => []

/-- `OctreeBlock<dim>` (include/octree_block.h): level, parent, corner, side, stored nodes and
quadrature points, children ids. `oct` is a ghost field: the index `j` of `children[j]` the block was
created from (bem_fma.cc:4054-4085); the program does not store it. The near neighbour and
interaction lists are in `Verif.Octree.Lists`. -/
structure Block (d : ℕ) where
  level : ℕ
  parent : ℕ
  pMin : Pt d
  delta : ℚ
  nodes : List ℕ
  qps : List (ℕ × ℕ)
  children : List ℕ
  oct : ℕ

/-- Offsets of the children corners in units of `delta`, in the order of `children[0..7]`
(bem_fma.cc:4054-4070) and `children[0..3]` (4075-4085). Only `dim = 2, 3` exist in the program. -/
def octants : (d : ℕ) → List (Fin d → Bool)
  | 2 => [![false, false], ![true, false], ![true, true], ![false, true]]
  | 3 => [![false, false, false], ![true, false, false], ![true, true, false],
          ![false, true, false], ![false, false, true], ![true, false, true],
          ![true, true, true], ![false, true, true]]
  | _ => []

/-- The nested tests selecting the child of a point in 3D (bem_fma.cc:4101-4158 for nodes and
4176-4241 for quadrature points). -/
def childIdx3 (pMin : Pt 3) (delta : ℚ) (x : Pt 3) : ℕ :=
  if x 2 ≤ pMin 2 + delta then
    if x 1 ≤ pMin 1 + delta then
      if x 0 ≤ pMin 0 + delta then 0 else 1
    else
      if x 0 ≤ pMin 0 + delta then 3 else 2
  else
    if x 1 ≤ pMin 1 + delta then
      if x 0 ≤ pMin 0 + delta then 4 else 5
    else
      if x 0 ≤ pMin 0 + delta then 7 else 6

/-- The nested tests selecting the child of a point in 2D (bem_fma.cc:4299-4324, 4342-4371). -/
def childIdx2 (pMin : Pt 2) (delta : ℚ) (x : Pt 2) : ℕ :=
  if x 1 ≤ pMin 1 + delta then
    if x 0 ≤ pMin 0 + delta then 0 else 1
  else
    if x 0 ≤ pMin 0 + delta then 3 else 2

/-- `if (dim == 3) ... else ...` dispatch (bem_fma.cc:4094, 4292). -/
def childIdx : (d : ℕ) → Pt d → ℚ → Pt d → ℕ
  | 2 => childIdx2
  | 3 => childIdx3
  | _ => fun _ _ _ => 0

/-- Corner of `children[j]` (bem_fma.cc:4054-4085). -/
def childPMin {d : ℕ} (pMin : Pt d) (delta : ℚ) (j : ℕ) : Pt d := fun a =>
  pMin a + if ((octants d).getD j (fun _ => false)) a then delta else 0

/-- State of the octree construction: the table `blocks` (with `count = blocksCount + 1`),
`startLevel`, `endLevel`, `parentList`, `childlessList`, `quad_point_to_block`, `dof_to_block`,
`dofs_filled_blocks`, `quad_points_filled_blocks`; `cap` is the size the table was given by
`blocks.resize(maxNumBlocks)` (3898) and `oob` records that some write `blocks[k] = ...` had
`k >= maxNumBlocks` (undefined behaviour in the program). -/
structure St (d : ℕ) where
  blocks : ℕ → Block d
  count : ℕ
  startLevel : ℕ → ℕ
  endLevel : ℕ → ℕ
  parentList : ℕ → List ℕ
  childless : List ℕ
  qpb : ℕ × ℕ → List ℕ
  dofb : ℕ → List ℕ
  dofsFilled : ℕ → List ℕ
  qpsFilled : ℕ → List ℕ
  cap : ℕ
  oob : Bool

/-- `for k in keys: m[k].push_back(v)` repeated `r` times for each key, the shape of the loops at
bem_fma.cc:4264-4276, 4279-4282, 4485-4497. -/
def pushAll {κ : Type} [DecidableEq κ] (m : κ → List ℕ) (keys : List κ) (v r : ℕ) : κ → List ℕ :=
  keys.foldl (fun m k => Function.update m k (m k ++ List.replicate r v)) m

/-- `max_coor_value` (bem_fma.cc:3872-3883). -/
def maxCoor {d : ℕ} (inp : Input d) : ℚ :=
  (List.range inp.nDofs).foldl (fun m i =>
    (List.finRange d).foldl (fun m a => max m |inp.pos i a|) m) 0

/-- All pairs `(cell, q)` in the order of the loops at bem_fma.cc:3967-3986. -/
def allQps {d : ℕ} (inp : Input d) : List (ℕ × ℕ) :=
  (List.range inp.nCells).flatMap fun c => (List.range inp.nq).map fun q => (c, q)

/-- The root block (bem_fma.cc:3953-4000). -/
def rootBlock {d : ℕ} (inp : Input d) : Block d where
  level := 0
  parent := 0
  pMin := fun _ => -(11 / 10) * maxCoor inp
  delta := 22 / 10 * maxCoor inp
  nodes := List.range inp.nDofs
  qps := allQps inp
  children := []
  oct := 0

/-- State before the loop on levels (bem_fma.cc:3885-4012): `maxNumBlocks` (3890-3892), table,
`parentList[0] = {0}` (3909), `blocks[0] = block` (4011). `startLevel[0] = endLevel[0] = 0`
by value initialisation of `resize` (3901-3902). -/
def initSt {d : ℕ} (inp : Input d) : St d where
  blocks := fun _ => rootBlock inp
  count := 1
  startLevel := fun _ => 0
  endLevel := fun _ => 0
  parentList := fun l => if l = 0 then [0] else []
  childless := []
  qpb := fun q => if q ∈ allQps inp then [0] else []
  dofb := fun i => if i < inp.nDofs then [0] else []
  dofsFilled := fun _ => []
  qpsFilled := fun _ => []
  cap := inp.levels * inp.nCells * inp.nq
  oob := decide (inp.levels * inp.nCells * inp.nq ≤ 0)

/-- `children[j]` after the distribution loops (bem_fma.cc:4096-4244, 4294-4374). The program runs
once over the points and appends each to the child selected by the nested tests; the model takes
for each child the sublist of the points selecting it (same lists, same order). -/
def mkChild {d : ℕ} (inp : Input d) (level : ℕ) (delta : ℚ) (jj : ℕ) (b : Block d) (j : ℕ) :
    Block d where
  level := level
  parent := jj
  pMin := childPMin b.pMin delta j
  delta := delta
  nodes := b.nodes.filter fun i => childIdx d b.pMin delta (inp.pos i) = j
  qps := b.qps.filter fun q => childIdx d b.pMin delta (inp.qpos q) = j
  children := []
  oct := j

/-- Body of the loop on the children (bem_fma.cc:4246-4289, 4376-4419): a non-empty child is copied
in the table, its id is appended to the children of the parent, and the two maps are updated
(`dof_to_block` with the id of the *parent*, for all the nodes of the *parent*: 4277-4282). -/
def addChild {d : ℕ} (jj : ℕ) (st : St d) (c : Block d) : St d :=
  if 0 < c.nodes.length + c.qps.length then
    let p := st.blocks jj
    { st with
      blocks := Function.update
        (Function.update st.blocks jj { p with children := p.children ++ [st.count] }) st.count c
      count := st.count + 1
      qpb := pushAll st.qpb c.qps st.count 1
      dofb := pushAll st.dofb p.nodes jj 1
      oob := st.oob || decide (st.cap ≤ st.count) }
  else st

/-- Body of the loop on the parents (bem_fma.cc:4036-4424). -/
def splitBlock {d : ℕ} (inp : Input d) (level : ℕ) (delta : ℚ) (st : St d) (jj : ℕ) : St d :=
  (List.range (2 ^ d)).foldl
    (fun s j => addChild jj s (mkChild inp level delta jj (st.blocks jj) j)) st

/-- `blockNumNodes` (bem_fma.cc:4447-4454). -/
def blockNumNodes {d : ℕ} (inp : Input d) (b : Block d) : ℚ :=
  (b.nodes.map fun i => 1 / ((inp.doubles i).card : ℚ)).sum

/-- `round` on a non-negative number (bem_fma.cc:4474): nearest integer, halves away from zero. -/
def roundUp (x : ℚ) : ℤ := ⌊x + 1 / 2⌋

/-- Body of the loop classifying the blocks of a level (bem_fma.cc:4440-4513). -/
def classify {d : ℕ} (inp : Input d) (level : ℕ) (st : St d) (jj : ℕ) : St d :=
  let b := st.blocks jj
  let st1 : St d :=
    if roundUp (blockNumNodes inp b) ≤ (inp.maxNodes : ℤ) then
      { st with
        childless := st.childless ++ [jj]
        dofb := pushAll st.dofb b.nodes jj (inp.levels - level)
        qpb := pushAll st.qpb b.qps jj (inp.levels - level) }
    else
      { st with
        parentList := Function.update st.parentList level (st.parentList level ++ [jj]) }
  { st1 with
    dofsFilled := if 0 < blockNumNodes inp b then
        Function.update st1.dofsFilled level (st1.dofsFilled level ++ [jj]) else st1.dofsFilled
    qpsFilled := if 0 < b.qps.length then
        Function.update st1.qpsFilled level (st1.qpsFilled level ++ [jj]) else st1.qpsFilled }

/-- One iteration of the loop on levels (bem_fma.cc:4030-4526): split the parents of the previous
level, set `startLevel`/`endLevel` (4429-4430), classify the new blocks. `delta /= 2.` at each
iteration (4035) makes `delta = 2.2 * max_coor_value / 2^level`. -/
def levelStep {d : ℕ} (inp : Input d) (level : ℕ) (st : St d) : St d :=
  let delta := 22 / 10 * maxCoor inp / 2 ^ level
  let st1 := (st.parentList (level - 1)).foldl (splitBlock inp level delta) st
  let s := st1.endLevel (level - 1) + 1
  let st2 : St d := { st1 with
    startLevel := Function.update st1.startLevel level s
    endLevel := Function.update st1.endLevel level (st1.count - 1) }
  (List.range' s (st1.count - s)).foldl (classify inp level) st2

/-- The loop on levels, up to level `k`. -/
def buildTo {d : ℕ} (inp : Input d) : ℕ → St d
  | 0 => initSt inp
  | k + 1 => levelStep inp (k + 1) (buildTo inp k)

/-- The tree after line 4540: the blocks of the last level that are still too full are appended to
`childlessList` (4528-4536). -/
def build {d : ℕ} (inp : Input d) : St d :=
  let st := buildTo inp inp.levels
  { st with childless := st.childless ++ st.parentList inp.levels }

end PiBem.Octree
