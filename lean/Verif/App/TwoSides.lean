import Verif.App.Domain
import Mathlib.Tactic.Linarith

/-!
# Restoring conformity along a doubled edge

`make_edges_conformal` (computational_domain.cc:1007-1115) on the two sides of a straight boundary edge of length `y - x`, on which the two parts of the
mesh have been bisected independently of each other. The pass of the loop is the one of `App/Domain` (`flagged`), on a mesh with the cells
along the edge.
-/

namespace PiBem.App

/-- Bisections of a boundary edge: each refinement of a cell (isotropic, or `cut_axis` along the edge, computational_domain.cc:1083-1098) cuts its
edge in the middle. -/
inductive Sub
  | leaf
  | node (l r : Sub)
  deriving DecidableEq

/-- Number of bisections on top of each other. -/
def Sub.depth : Sub → ℕ
  | .leaf => 0
  | .node l r => max l.depth r.depth + 1

/-- The vertices of a bisected edge from `x` to `y` in order, without the last one. -/
noncomputable def Sub.pts : Sub → ℝ → ℝ → List ℝ
  | .leaf, x, _ => [x]
  | .node l r, x, y => l.pts x ((x + y) / 2) ++ r.pts ((x + y) / 2) y

/-- The vertices of a bisected edge from `x` to `y`. -/
noncomputable def Sub.side (T : Sub) (x y : ℝ) : List ℝ := T.pts x y ++ [y]

/-- The cell with the boundary edge from vertex `k` to vertex `k + 1`; its vertices not on the edge are left out. -/
def cellOf (k : ℕ) : ECell := ⟨[k, k + 1], [(0, k, k + 1)]⟩

/-- The mesh along the edge: vertices and cells of one side, then of the other. The two sides have no common vertex indices: this is what makes the
edge a boundary edge (doubled) for deal.II. -/
def twoSides (p q : List ℝ) : EMesh ℝ :=
  ⟨p.length + q.length, fun k => (p ++ q).getD k 0,
    (List.range (p.length - 1)).map cellOf ++ (List.range (q.length - 1)).map fun k => cellOf (p.length + k)⟩

/-- `execute_coarsening_and_refinement` on one side (computational_domain.cc:1106-1113): the flagged leaves are bisected. `first` is the index of the first
vertex; returns also the number of leaves. -/
noncomputable def bisect (flags : ECell → Prop) : Sub → ℕ → Sub × ℕ
  | .leaf, k => by classical exact (if flags (cellOf k) then .node .leaf .leaf else .leaf, 1)
  | .node l r, k =>
    let a := bisect flags l k
    let b := bisect flags r (k + a.2)
    (.node a.1 b.1, a.2 + b.2)

/-- Outcome of the loop. -/
inductive TwoSidesResult
  | stopped (S T : Sub)
  | outOfBounds
  | running (S T : Sub)

/-- The loop `while (to_restore)` (computational_domain.cc:1016-1115) on the mesh along the edge, `fuel` passes. -/
noncomputable def restore (tol x y : ℝ) : ℕ → Sub → Sub → TwoSidesResult
  | 0, S, T => .running S T
  | fuel + 1, S, T =>
    match flagged 0 (fun a b => |a - b|) (fun a b => (a + b) / 2) tol (twoSides (S.side x y) (T.side x y)) with
    | none => .outOfBounds
    | some l =>
      if l.isEmpty then .stopped S T else
        let flags := fun c => ∃ f, (c, f) ∈ l
        restore tol x y fuel (bisect flags S 0).1 (bisect flags T (S.side x y).length).1

end PiBem.App
