import Verif.App.Domain
import Mathlib.Analysis.Real.Pi.Bounds
import Mathlib.Algebra.BigOperators.Fin

/-!
# Refinement by the curvature of the CAD surface

`ComputationalDomain<3>::refine_and_resize`, the curvature loop (source/computational_domain.cc:716-870). Exact real
arithmetic; a division by zero (`nn /= nn.norm()`) is the outcome `none`. The CAD library is an arbitrary function.
-/

noncomputable section

namespace PiBem.App

/-- A point or vector of space. -/
abbrev P3 := Fin 3 → ℝ

/-- A cell: its four vertices in the lexicographic order of deal.II, and its material id. -/
structure GCell where
  v : Fin 4 → P3
  material : ℕ

/-- `cell->center()`: the mean of the vertices (deal.II). -/
def GCell.center (c : GCell) : P3 := fun a => (c.v 0 a + c.v 1 a + c.v 2 a + c.v 3 a) / 4

/-- `Point<3>::norm()`. -/
def norm3 (x : P3) : ℝ := Real.sqrt (x 0 ^ 2 + x 1 ^ 2 + x 2 ^ 2)

/-- `cell->diameter()`: the longer diagonal (deal.II). -/
def GCell.diameter (c : GCell) : ℝ := max (norm3 (c.v 3 - c.v 0)) (norm3 (c.v 2 - c.v 1))

/-- `Point<3> nn0(t0(1) * t1(2) - t0(2) * t1(1), …)` (computational_domain.cc:763-765). -/
def cross3 (x y : P3) : P3 := ![x 1 * y 2 - x 2 * y 1, x 2 * y 0 - x 0 * y 2, x 0 * y 1 - x 1 * y 0]

/-- `nn /= nn.norm()`. -/
def unit3 (x : P3) : Option P3 := if norm3 x = 0 then none else some fun a => x a / norm3 x

/-- The estimate `n` of the normal of the cell (computational_domain.cc:754-780). -/
def cellDirection (c : GCell) : Option P3 := do
  let t := fun k => c.v k - c.center
  let nn0 ← unit3 (cross3 (t 0) (t 1))
  let nn1 ← unit3 (cross3 (t 1) (t 3))
  let nn2 ← unit3 (cross3 (t 3) (t 2))
  let nn3 ← unit3 (cross3 (t 2) (t 0))
  unit3 fun a => (nn0 a + nn1 a + nn2 a + nn3 a) / 4

/-- Parameters of the loop: number of CAD surfaces, tolerance, `cells_per_circle`, and the two principal curvatures that the CAD
library returns for a surface where the line through a point with a direction meets it (`line_intersection` and
`closest_point_and_differential_forms`, computational_domain.cc:801-808), an arbitrary function. -/
structure CurvParams where
  nSurfaces : ℕ
  tolerance : ℝ
  cellsPerCircle : ℝ
  curvatures : ℕ → P3 → P3 → ℝ × ℝ

/-- `cell_size` (computational_domain.cc:793-833); `none` if the vector of surfaces is accessed out of bounds or the direction is
not a number. -/
def cellSize (p : CurvParams) (c : GCell) : Option ℝ :=
  match surfaceAccess p.nSurfaces c.material with
  | .surface i => (cellDirection c).map fun n =>
      let k := p.curvatures i c.center n
      let maxAbsCurv := max |k.1| |k.2|
      2 * Real.pi / p.cellsPerCircle * (1 / max maxAbsCurv p.tolerance)
  | .noSurface => some (2 * Real.pi / p.cellsPerCircle / p.tolerance)
  | .outOfBounds => none

open Classical in
/-- Whether a cell is flagged (computational_domain.cc:843-848). -/
def curvFlag (p : CurvParams) (c : GCell) : Option Bool :=
  (cellSize p c).map fun s => decide (curvatureFlag p.tolerance ⟨c.diameter, s⟩)

/-- One cycle (computational_domain.cc:736-855): flags on all active cells, then `execute_coarsening_and_refinement` and
`make_edges_conformal` (`execute`, abstract). `none`: undefined behaviour or a direction that is not a number. -/
def curvCycle (p : CurvParams) (execute : List GCell → List Bool → List GCell) :
    Option (List GCell) → Option (List GCell) × ℕ
  | none => (none, 0)
  | some t => match t.mapM (curvFlag p) with
    | none => (none, 0)
    | some flags => (some (execute t flags), flags.countP id)

/-- The curvature loop (computational_domain.cc:727-870): `refinedCellCounter = 1`. -/
def curvLoop (p : CurvParams) (execute : List GCell → List Bool → List GCell) (maxCycles : ℕ) (t : List GCell) :
    Option (List GCell) × List ℕ :=
  refineLoop (curvCycle p execute) maxCycles 1 (some t)

end PiBem.App
