import Verif.Fmm.Model

/-!
# Number of operations of a fast multipole product

Counts of the operations between two blocks done by the loops of one product on one process owning all the rows (on the others some are
skipped). Models, of source/bem_fma.cc, the bounds of the loops of `multipole_matr_vect_products` (2735-2966) and `direct_integrals` (735-1310).
-/

namespace PiBem.Fmm

open PiBem.Octree

variable {d : ℕ}

/-- Blocks visited by the descending phase, level by level (bem_fma.cc:2935-2966). -/
def descendBlocks (inp : Input d) (T : St d) : List ℕ := (List.range' 1 inp.levels).flatMap T.dofsFilled

/-- Conversions of a multipole expansion to a local one: iterations of the loop on the non interaction list of each sublevel of each block
(bem_fma.cc:2810-2850). -/
def conversions (inp : Input d) (T : St d) : ℕ :=
  ((descendBlocks inp T).map fun k => ∑ s ∈ Finset.range (numSub inp T k), (m2lSet inp T k s).card).sum

/-- Multipole expansions evaluated at all the nodes of a block: iterations of the loop on the smaller blocks (bem_fma.cc:2855-2905). -/
def evaluations (inp : Input d) (T : St d) : ℕ :=
  ((descendBlocks inp T).map fun k => ∑ s ∈ Finset.range (numSub inp T k), (m2pSet inp T k s).card).sum

/-- Evaluations of a multipole expansion at a node (bem_fma.cc:2868-2903). -/
def nodeEvaluations (inp : Input d) (T : St d) : ℕ :=
  ((descendBlocks inp T).map fun k => (T.blocks k).nodes.length * ∑ s ∈ Finset.range (numSub inp T k), (m2pSet inp T k s).card).sum

/-- Pairs of a leaf and a block whose points are integrated directly for its nodes (bem_fma.cc:775-804). -/
def nearPairs (inp : Input d) (T : St d) : ℕ :=
  (T.childless.map fun k => (intList inp T k (numSub inp T k - 1)).card).sum

/-- Pairs of a block and a bigger block integrated directly (bem_fma.cc:1146-1184, 1271-1295). -/
def bigPairs (inp : Input d) (T : St d) : ℕ :=
  ((List.range' 1 inp.levels).map fun l => ((T.dofsFilled l).map fun k => (bigSet inp T (T.startLevel l) k).card).sum).sum

end PiBem.Fmm
