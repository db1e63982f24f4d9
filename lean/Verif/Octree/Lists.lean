import Verif.Octree.Model
import Mathlib.Data.Finset.Union
import Mathlib.Data.Finset.Lattice.Fold

/-!
# Model of the proximity and interaction lists

Models the second half of `BEMFMA<dim>::generate_octree_blocking`, source/bem_fma.cc:4589-5187: near
neighbours (`nearNeigh`), interaction lists (`intList`), non interaction lists (`nonIntList`). The
`std::set<unsigned>` of the program are `Finset ℕ`. Coordinates are exact rationals.
-/

namespace PiBem.Octree

variable {d : ℕ}

/-- `#define TOLL 0.001` (bem_fma.cc:1). -/
def toll : ℚ := 1 / 1000

/-- `PMax` of a block (bem_fma.cc:4611-4616). -/
def Block.pMax (b : Block d) : Pt d := fun a => b.pMin a + b.delta

/-- `fabs(PMin1(a) - PMax2(a)) <= TOLL || fabs(PMax1(a) - PMin2(a)) <= TOLL`. -/
def touchAx (b1 b2 : Block d) (a : Fin d) : Bool :=
  decide (|b1.pMin a - b2.pMax a| ≤ toll) || decide (|b1.pMax a - b2.pMin a| ≤ toll)

/-- `PMin1(a) - TOLL <= PMax2(a) && PMax1(a) + TOLL >= PMin2(a)`. -/
def overlapAx (b1 b2 : Block d) (a : Fin d) : Bool :=
  decide (b1.pMin a - toll ≤ b2.pMax a) && decide (b1.pMax a + toll ≥ b2.pMin a)

/-- The three nested tests of the 3D case (bem_fma.cc:4648-4691; the same text at 4731-4774 and
4868-4916). -/
def adj3 (b1 b2 : Block 3) : Bool :=
  (touchAx b1 b2 0 && overlapAx b1 b2 1 && overlapAx b1 b2 2) ||
  (touchAx b1 b2 1 && overlapAx b1 b2 0 && overlapAx b1 b2 2) ||
  (touchAx b1 b2 2 && overlapAx b1 b2 1 && overlapAx b1 b2 0)

/-- The two nested tests of the 2D case (bem_fma.cc:4693-4716, 4776-4799, 4918-4942). -/
def adj2 (b1 b2 : Block 2) : Bool :=
  (touchAx b1 b2 0 && overlapAx b1 b2 1) || (touchAx b1 b2 1 && overlapAx b1 b2 0)

/-- `if (dim == 3) ... else if (dim == 2) ...`. -/
def adj : (d : ℕ) → Block d → Block d → Bool
  | 2 => adj2
  | 3 => adj3
  | _ => fun _ _ => false

/-- `GetBlockChildrenNum() == 0`. -/
def St.isLeaf (T : St d) (b : ℕ) : Bool := (T.blocks b).children.isEmpty

/-- Ids of the loop `for (ii = startLevel[l]; ii < endLevel[l] + 1; ii++)`. -/
def St.levelIds (T : St d) (l : ℕ) : List ℕ :=
  List.range' (T.startLevel l) (T.endLevel l + 1 - T.startLevel l)

/-- `nearNeigh[0]` of block `k` from `nearNeigh[0]` of its parent (bem_fma.cc:4606-4805): the block
itself, the childless near neighbours of the parent passing the test, the children of the near
neighbours of the parent passing the test. -/
def nnFirst (T : St d) (k : ℕ) (parentNN : Finset ℕ) : Finset ℕ :=
  insert k (parentNN.biUnion fun p =>
    (if T.isLeaf p ∧ adj d (T.blocks k) (T.blocks p) then {p} else ∅) ∪
    (T.blocks p).children.toFinset.filter fun c => adj d (T.blocks k) (T.blocks c))

/-- `nearNeigh[subLevel]` of the childless block `k` from `nearNeigh[subLevel - 1]`
(bem_fma.cc:4826-4953): childless near neighbours stay, the others are replaced by their children
passing the test. -/
def nnNext (T : St d) (k : ℕ) (prev : Finset ℕ) : Finset ℕ :=
  prev.biUnion fun p =>
    (if T.isLeaf p then {p} else ∅) ∪
    (T.blocks p).children.toFinset.filter fun c => adj d (T.blocks k) (T.blocks c)

/-- `nearNeigh[s]` of a childless block, by iteration on the sublevels. -/
def nnSub (T : St d) (k : ℕ) (first : Finset ℕ) : ℕ → Finset ℕ
  | 0 => first
  | s + 1 => nnNext T k (nnSub T k first s)

/-- `NumNearNeighLevels()`: 1 (constructor, octree_block.cc:31-33) except for childless blocks of
level at least 2, resized to `num_octree_levels - level + 1` (bem_fma.cc:4812). The lists of the
level 1 blocks are never resized: the loop starts at level 2 (4600). -/
def numSub (inp : Input d) (T : St d) (k : ℕ) : ℕ :=
  if T.isLeaf k ∧ 2 ≤ (T.blocks k).level then inp.levels - (T.blocks k).level + 1 else 1

/-- Body of the loop on blocks computing near neighbours (bem_fma.cc:4606-4963), reading the lists
`f` computed so far. -/
def nnStep (inp : Input d) (T : St d) (k : ℕ) (f : ℕ → ℕ → Finset ℕ) : ℕ → Finset ℕ := fun s =>
  if s < numSub inp T k then nnSub T k (nnFirst T k (f (T.blocks k).parent 0)) s else ∅

/-- The near neighbours of all the blocks: level 1 (bem_fma.cc:4591-4598), then the loop on the
levels `2..num_octree_levels` and on their blocks (4600-4965). -/
def nearNeigh (inp : Input d) (T : St d) : ℕ → ℕ → Finset ℕ :=
  let f0 : ℕ → ℕ → Finset ℕ := fun k s =>
    if k ∈ T.levelIds 1 ∧ s = 0 then (T.levelIds 1).toFinset else ∅
  ((List.range' 2 (inp.levels - 1)).flatMap T.levelIds).foldl
    (fun f k => Function.update f k (nnStep inp T k f)) f0

/-- `dof_to_elems[i]` (bem_fma.cc:3988-3995): the cells pushed by earlier calls, then the cells having `i` among
their dofs. -/
def dofToElems (inp : Input d) (i : ℕ) : List ℕ :=
  inp.oldElems i ++ (List.range inp.nCells).filter fun c => i ∈ inp.cellDofs c

/-- `quadPoints[cell].size()`: the map is filled for the active cells (bem_fma.cc:3936, 3970); `operator[]` gives
an empty vector for the others. -/
def quadPointsSize (inp : Input d) (c : ℕ) : ℕ := if c < inp.nCells then inp.nq else 0

/-- Blocks added to `intList[s]` for the cells of `dof_to_elems` of a node of the block or one of its doubles
(bem_fma.cc:5034-5064): `quad_point_to_block[cell][j][level + subLevel]`. -/
def singBlocks (inp : Input d) (T : St d) (k s : ℕ) : Finset ℕ :=
  (T.blocks k).nodes.toFinset.biUnion fun i => (inp.doubles i).biUnion fun p =>
    (dofToElems inp p).toFinset.biUnion fun c => (Finset.range (quadPointsSize inp c)).image fun j =>
      (T.qpb (c, j)).getD ((T.blocks k).level + s) 0

/-- `intList[s]` of block `k`: all the level 1 blocks at level 1 (bem_fma.cc:4997-5004), near
neighbours and `singBlocks` otherwise (5014-5066). -/
def intList (inp : Input d) (T : St d) (k s : ℕ) : Finset ℕ :=
  if k ∈ T.levelIds 1 then (if s = 0 then (T.levelIds 1).toFinset else ∅)
  else if s < numSub inp T k then nearNeigh inp T k s ∪ singBlocks inp T k s else ∅

/-- Replacement of the subdivided blocks of a list by their children (bem_fma.cc:5083-5117). -/
def refine (T : St d) (S : Finset ℕ) : Finset ℕ :=
  S.biUnion fun p => if T.isLeaf p then {p} else (T.blocks p).children.toFinset

/-- `nonIntList[s]` of block `k` (bem_fma.cc:5067-5119): blocks of the refined list of the parent
(`s = 0`) or of the previous sublevel not in `intList[s]`. Empty at level 1: the loop starts at
level 2 (5007). -/
def nonIntList (inp : Input d) (T : St d) (k s : ℕ) : Finset ℕ :=
  if 2 ≤ (T.blocks k).level ∧ s < numSub inp T k then
    refine T (if s = 0 then intList inp T (T.blocks k).parent 0 else intList inp T k (s - 1))
      \ intList inp T k s
  else ∅

end PiBem.Octree
