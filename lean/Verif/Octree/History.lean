import Verif.Octree.Lists

/-!
# Repeated calls of `generate_octree_blocking`

Every cycle of the driver calls `generate_octree_blocking` on the same `BEMFMA` object with the refined and renumbered
mesh. The calls share `dof_to_elems`. The other containers of the octree are emptied at the beginning of the call
(bem_fma.cc:3889-3944).
-/

namespace PiBem.Octree

/-- What a call sees of the mesh: the active cells, in iteration order, and their dofs. Cells are identified by a
number which is the same in all the calls (level and index of the iterator). -/
structure Mesh where
  active : List ℕ
  dofs : ℕ → List ℕ

/-- `dof_to_elems[local_dof_indices[j]].push_back(cell)` for the dofs of the active cells (bem_fma.cc:3965-3995). -/
def pushElems (m : ℕ → List ℕ) (M : Mesh) : ℕ → List ℕ :=
  M.active.foldl (fun m c => (M.dofs c).foldl (fun m i => Function.update m i (m i ++ [c])) m) m

/-- `dof_to_elems` after the calls on the meshes of the list, in order. -/
def elemsAfter (hist : List Mesh) : ℕ → List ℕ := hist.foldl pushElems fun _ => []

/-- The input of a call on mesh `M` after the calls `hist`: the active cells are numbered by their position in `M`;
the other fields are those of `inp`. -/
def callInput {d : ℕ} (inp : Input d) (hist : List Mesh) (M : Mesh) : Input d :=
  { inp with
    nCells := M.active.length
    cellDofs := fun c => M.dofs (M.active.getD c 0)
    oldElems := fun i => (elemsAfter hist i).map M.active.idxOf }

end PiBem.Octree
