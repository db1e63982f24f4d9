import Verif.App.Domain

/-!
# The aspect ratio loop on flat cells

`ComputationalDomain<3>::refine_and_resize` (source/computational_domain.cc:655-715) on meshes of parallelograms without
curved manifolds, for which cutting a cell across a direction halves its extent in that direction.
-/

namespace PiBem.App

/-- The children of a flat cell refined with `RefinementCase<2>::cut_axis(d)` (computational_domain.cc:684-690), or the cell
itself if it is not flagged. -/
noncomputable def cutCell (c : ACell) : Option (Fin 2) → List ACell
  | none => [c]
  | some d => if d = 0 then [⟨c.e0 / 2, c.e1⟩, ⟨c.e0 / 2, c.e1⟩] else [⟨c.e0, c.e1 / 2⟩, ⟨c.e0, c.e1 / 2⟩]

/-- `execute_coarsening_and_refinement` (computational_domain.cc:697) followed by `make_edges_conformal`
(computational_domain.cc:713), on a mesh where they refine the flagged cells only. Simplification: deal.II refines further
cells if an edge would get more than one hanging node. -/
noncomputable def flatExecute (t : List ACell) (flags : List (Option (Fin 2))) : List ACell :=
  (List.zipWith cutCell t flags).flatten

end PiBem.App
