import Mathlib.Data.Real.Basic
import Mathlib.Data.List.Sort
import Mathlib.Logic.Function.Basic

/-!
# Computational domain

`ComputationalDomain<3>` (source/computational_domain.cc): refinement loops, CAD surfaces and manifold ids, double vertex
cache and edge conformity. The triangulation of deal.II is an abstract state.
-/

namespace PiBem.App

/-! ## Refinement loops -/

/-- The loop `while (refinedCellCounter && cycles_counter < max) { … }` (computational_domain.cc:657-715 with `max = 10`,
and 733-870 with `max = max_curvature_ref_cycles`), `cycle` its body: new mesh and number of flagged cells. Returns
the final mesh and the numbers of flagged cells, cycle by cycle. `counter` is the value at the test. -/
def refineLoop {T : Type} (cycle : T → T × ℕ) : ℕ → ℕ → T → T × List ℕ
  | 0, _, t => (t, [])
  | left + 1, counter, t =>
    if counter = 0 then (t, []) else
      let r := refineLoop cycle left (cycle t).2 (cycle t).1
      (r.1, (cycle t).2 :: r.2)

/-- A cell as seen by the aspect ratio test: its extents in the two directions. -/
structure ACell where
  e0 : ℝ
  e1 : ℝ

/-- The direction in which a cell is cut, if it is flagged (computational_domain.cc:669-690). -/
noncomputable def aspectFlag (maxRatio : ℝ) (c : ACell) : Option (Fin 2) :=
  let maxDim : Fin 2 := if c.e0 < c.e1 then 1 else 0
  let minDim : Fin 2 := if c.e0 < c.e1 then 0 else 1
  let ext (d : Fin 2) : ℝ := if d = 0 then c.e0 else c.e1
  if ext maxDim > maxRatio * ext minDim then some maxDim else none

/-- One cycle of the aspect ratio loop: flags on the active cells, then `execute_coarsening_and_refinement` and
`make_edges_conformal` (`execute`, abstract). -/
noncomputable def aspectCycle (maxRatio : ℝ) (execute : List ACell → List (Option (Fin 2)) → List ACell)
    (t : List ACell) : List ACell × ℕ :=
  let flags := t.map (aspectFlag maxRatio)
  (execute t flags, flags.countP Option.isSome)

/-- The aspect ratio loop: `refinedCellCounter = 1`, at most 10 cycles (computational_domain.cc:657-661). -/
noncomputable def aspectLoop (maxRatio : ℝ) (execute : List ACell → List (Option (Fin 2)) → List ACell)
    (t : List ACell) : List ACell × List ℕ :=
  refineLoop (aspectCycle maxRatio execute) 10 1 t

/-- A cell as seen by the curvature test: diameter and target size. -/
structure KCell where
  diameter : ℝ
  target : ℝ

/-- Curvature flag (computational_domain.cc:843-848). -/
def curvatureFlag (tolerance : ℝ) (c : KCell) : Prop := c.diameter > c.target ∧ c.diameter > 10 * tolerance

/-! ## CAD surfaces -/

/-- Result of the choice of the CAD surface for a cell. -/
inductive SurfaceAccess
  | surface (i : ℕ)
  | noSurface
  | outOfBounds
  deriving DecidableEq

/-- Conversion of an `unsigned int` to `int`. -/
def toInt32 (m : ℕ) : ℤ := if m < 2 ^ 31 then m else (m : ℤ) - 2 ^ 32

/-- `if (int(material_id) - 1 < (int)cad_surfaces.size()) cad_surfaces[int(material_id) - 1]`
(computational_domain.cc:795-800), `n` the number of surfaces. A negative index is out of bounds. -/
def surfaceAccess (n material : ℕ) : SurfaceAccess :=
  let k := toInt32 material - 1
  if k < n then (if 0 ≤ k then .surface k.toNat else .outOfBounds) else .noSurface

/-- What a manifold id is attached to. -/
inductive Manifold
  | surface (i : ℕ)
  | curve (i : ℕ)
  deriving DecidableEq

/-- The calls of `set_manifold` (computational_domain.cc:643-652): a later call with the same id replaces the manifold. -/
def setManifolds (nSurfaces nCurves : ℕ) (m : ℕ → Option Manifold) : ℕ → Option Manifold :=
  let m := (List.range nSurfaces).foldl (fun (m : ℕ → Option Manifold) i => Function.update m (1 + i) (some (Manifold.surface i))) m
  (List.range nCurves).foldl (fun (m : ℕ → Option Manifold) i => Function.update m (11 + i) (some (Manifold.curve i))) m

/-- The calls of `reset_manifold` in the destructor (computational_domain.cc:50-63). -/
def resetManifolds (nSurfaces nCurves : ℕ) (m : ℕ → Option Manifold) : ℕ → Option Manifold :=
  let m := (List.range nSurfaces).foldl (fun (m : ℕ → Option Manifold) i => Function.update m (1 + i) none) m
  let m := (List.range nCurves).foldl (fun (m : ℕ → Option Manifold) i => Function.update m (11 + i) none) m
  Function.update m 0 none

/-- The loops reading the CAD files (computational_domain.cc:559-603): files are numbered from 1 and read until the first
missing one. `fuel` bounds the number of files that can exist. -/
def countFiles (file : ℕ → Bool) : ℕ → ℕ → ℕ
  | 0, _ => 0
  | fuel + 1, ii => if file ii then countFiles file fuel (ii + 1) + 1 else 0

/-! ## Double vertices and edges -/

/-- A mesh as seen by `compute_double_vertex_cache` and `make_edges_conformal`: number of vertices, their positions, and the
active cells. `P` is the type of points. -/
structure ECell where
  /-- indices of the vertices of the cell -/
  verts : List ℕ
  /-- boundary faces of the cell: number of the face and indices of its two end points -/
  bfaces : List (ℕ × ℕ × ℕ)

/-- The mesh. -/
structure EMesh (P : Type) where
  nVerts : ℕ
  pos : ℕ → P
  cells : List ECell

variable {P : Type}

/-- `double_vertex_vector[i]` (computational_domain.cc:1130-1139). -/
noncomputable def doubleVertices (dist : P → P → ℝ) (tol : ℝ) (M : EMesh P) (i : ℕ) : List ℕ := by
  classical exact (List.range M.nVerts).filter (fun j => decide (dist (M.pos i) (M.pos j) ≤ tol))

/-- `vertex_on_boundary[i]` (computational_domain.cc:1149-1181): some active cell has a boundary face one of whose end points
has the position of the vertex `i` of the cell. -/
def OnBoundary (M : EMesh P) (i : ℕ) : Prop :=
  ∃ c ∈ M.cells, i ∈ c.verts ∧ ∃ f ∈ c.bfaces, M.pos f.2.1 = M.pos i ∨ M.pos f.2.2 = M.pos i

/-- `vert_to_elems[i]` (computational_domain.cc:1158). -/
def vertToElems (M : EMesh P) (i : ℕ) : List ECell := M.cells.filter (fun c => decide (i ∈ c.verts))

/-- The value assigned to `nodes[kk]` by one cell (computational_domain.cc:1044-1062): `none` if no assignment is made; the
last assignment is kept. -/
noncomputable def otherEnd (dist : P → P → ℝ) (tol : ℝ) (M : EMesh P) (i : ℕ) (c : ECell) : Option P := by
  classical exact
    c.bfaces.foldl (fun r f =>
      if dist (M.pos i) (M.pos f.2.1) < tol then some (M.pos f.2.2)
      else if dist (M.pos i) (M.pos f.2.2) < tol then some (M.pos f.2.1) else r) none

/-- `nodes` after the loop over `vert_to_elems[i]` (computational_domain.cc:1033-1064); the vector has two entries,
initially the origin. `none`: an assignment out of bounds. -/
noncomputable def edgeNodes (origin : P) (dist : P → P → ℝ) (tol : ℝ) (M : EMesh P) (i : ℕ) : Option (P × P) :=
  let l := (vertToElems M i).map (otherEnd dist tol M i)
  if (l.drop 2).all Option.isNone then
    some ((l[0]?.join).getD origin, (l[1]?.join).getD origin)
  else none

/-- Faces flagged because of the vertex `i` (computational_domain.cc:1067-1101): `mid a b` is the midpoint; cells are
given with their boundary faces. -/
noncomputable def flaggedBy (origin : P) (dist : P → P → ℝ) (mid : P → P → P) (tol : ℝ) (M : EMesh P) (i : ℕ) :
    Option (List (ECell × ℕ)) := by
  classical exact
    if OnBoundary M i ∧ (doubleVertices dist tol M i).length = 1 then
      (edgeNodes origin dist tol M i).map (fun nn =>
        M.cells.flatMap (fun c => (c.bfaces.filter (fun f =>
          decide (dist (mid nn.1 nn.2) (mid (M.pos f.2.1) (M.pos f.2.2)) < tol))).map (fun f => (c, f.1))))
    else some []

/-- All faces flagged in one pass of the loop (computational_domain.cc:1017-1104). -/
noncomputable def flagged (origin : P) (dist : P → P → ℝ) (mid : P → P → P) (tol : ℝ) (M : EMesh P) :
    Option (List (ECell × ℕ)) :=
  (List.range M.nVerts).foldl (fun r i => r.bind fun l => (flaggedBy origin dist mid tol M i).map (l ++ ·)) (some [])

/-- Outcome of the conformity loop. -/
inductive LoopResult (P : Type)
  | stopped (M : EMesh P)
  | outOfBounds
  | running (M : EMesh P)

/-- `make_edges_conformal` with double nodes (computational_domain.cc:1007-1115): `refine` is the refinement of the flagged
cells; `fuel` passes are executed. -/
noncomputable def conformLoop (origin : P) (dist : P → P → ℝ) (mid : P → P → P) (tol : ℝ)
    (refine : EMesh P → List (ECell × ℕ) → EMesh P) : ℕ → EMesh P → LoopResult P
  | 0, M => .running M
  | fuel + 1, M =>
    match flagged origin dist mid tol M with
    | none => .outOfBounds
    | some l => if l.isEmpty then .stopped M else conformLoop origin dist mid tol refine fuel (refine M l)

end PiBem.App
