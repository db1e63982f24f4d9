import Verif.App.TwoSides

/-!
# Restoring conformity on a mesh with several doubled edges

`make_edges_conformal` (computational_domain.cc:1007-1115) on a mesh whose boundary consists of several straight doubled edges. A cell can have
edges on several of them (at a corner), and `execute_coarsening_and_refinement` refines more cells than those flagged: the refinement of a
pass is therefore a relation, restricted only by what the library guarantees.
-/

namespace PiBem.App

/-- A doubled edge of the coarse mesh, from `x` to `y` in a coordinate along it, with the bisections of its two sides. -/
structure DEdge where
  x : ℝ
  y : ℝ
  S : Sub
  T : Sub

/-- The pass over the vertices of this edge flags nothing. Simplification: the vertices of other edges are farther than the tolerance. -/
def DEdge.Quiet (tol : ℝ) (e : DEdge) : Prop := restore tol e.x e.y 1 e.S e.T = .stopped e.S e.T

/-- `S` is obtained from `U` by bisecting some of its edges once. -/
def BisectedOnce : Sub → Sub → Prop
  | .leaf, S => S = .leaf ∨ S = .node .leaf .leaf
  | .node _ _, .leaf => False
  | .node l r, .node l' r' => BisectedOnce l l' ∧ BisectedOnce r r'

/-- The edge after a pass with refinement (computational_domain.cc:1083-1110). Library contract: a refinement bisects an edge at most once, and all
flagged ones; which others it bisects (cells with several boundary edges, smoothing of the mesh) is left open. -/
structure PassEdge (tol : ℝ) (e e' : DEdge) : Prop where
  hx : e'.x = e.x
  hy : e'.y = e.y
  onceS : BisectedOnce e.S e'.S
  onceT : BisectedOnce e.T e'.T
  flagged : e.Quiet tol ∨ ∃ S₁ T₁, restore tol e.x e.y 1 e.S e.T = .running S₁ T₁ ∧
    (∀ z ∈ S₁.side e.x e.y, z ∈ e'.S.side e.x e.y) ∧ ∀ z ∈ T₁.side e.x e.y, z ∈ e'.T.side e.x e.y

/-- One pass of `while (to_restore)` in which something is flagged. `D` bounds the number of bisections of all edges of the mesh on top of each other.
Library contract: smoothing refines no cell more than its neighbours, so that `D` stays a bound. -/
structure MeshPass {n : ℕ} (tol : ℝ) (D : ℕ) (E E' : Fin n → DEdge) : Prop where
  found : ∃ k, ¬ (E k).Quiet tol
  edge : ∀ k, PassEdge tol (E k) (E' k)
  bound : ∀ k, (E' k).S.depth ≤ D ∧ (E' k).T.depth ≤ D

/-- `N` passes. -/
inductive Passes {n : ℕ} (tol : ℝ) (D : ℕ) : ℕ → (Fin n → DEdge) → (Fin n → DEdge) → Prop
  | refl (E : Fin n → DEdge) : Passes tol D 0 E E
  | step (N : ℕ) (E E' E'' : Fin n → DEdge) (h : MeshPass tol D E E') (hs : Passes tol D N E' E'') : Passes tol D (N + 1) E E''

end PiBem.App
