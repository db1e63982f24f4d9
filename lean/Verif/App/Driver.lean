import Mathlib.Data.Real.Basic
import Mathlib.Logic.Function.Basic
import Mathlib.Tactic.Ring
import Mathlib.Tactic.Linarith

/-!
# Driver, mapping and singular quadratures

`Driver::run` (driver.cc), the mapping part of `BEMProblem::reinit` and `BEMProblem::get_singular_quadrature`
(bem_problem.cc).
-/

namespace PiBem.App

/-! ## Driver::run -/

/-- Observable steps of a run. -/
inductive Event
  | readDomain
  | refine (levels : ℕ)
  | updateTriangulation
  | reinit
  | solve
  | adaptiveRefinement
  | computeErrors
  | output
  deriving DecidableEq

/-- `Driver::run` (driver.cc:82-127). The body of the loop over `i ≤ local_refinement_cycles` is in
`cycleEvents`. -/
def cycleEvents (globalRefinement : Bool) (localCycles i : ℕ) : List Event :=
  [.reinit, .solve] ++
  (if !globalRefinement && decide (i < localCycles) then [.adaptiveRefinement, .updateTriangulation] else [])

/-- `Driver::run` (driver.cc:82-127). -/
def run (globalRefinement : Bool) (nCycles preGlobalRefinements : ℕ) : List Event :=
  let localCycles := if globalRefinement then 0 else nCycles
  [.readDomain] ++
  (if globalRefinement then [.refine nCycles] else [.refine preGlobalRefinements]) ++
  [.updateTriangulation] ++
  (List.range (localCycles + 1)).flatMap (cycleEvents globalRefinement localCycles) ++
  [.computeErrors, .output]

/-! ## The mapping -/

/-- `mapping_type` (bem_problem.cc:476-480): "FE" or another string. -/
inductive MappingType | fe | q
  deriving DecidableEq

/-- What `reinit` reads about the spheroid (computational_domain.h): `spheroid_bool && used_spherical_manifold` and
the axes. -/
structure Spheroid where
  active : Bool
  x : ℝ
  y : ℝ
  z : ℝ

/-- Mapping state of `BEMProblem`: whether `mapping` has been created and the content of `map_vector` (empty before the
first call). A created FE mapping keeps a pointer to `map_vector`. -/
structure MapState where
  created : Bool
  size : ℕ
  mapVector : ℕ → ℝ

def MapState.init : MapState := ⟨false, 0, fun _ => 0⟩

/-- Multiply the entry at position `k`. -/
noncomputable def mulAt (v : ℕ → ℝ) (k : ℕ) (a : ℝ) : ℕ → ℝ := Function.update v k (v k * a)

/-- Body of the loop scaling the positions (bem_problem.cc:203-215): `n` scalar dofs, `vo2s` is
`vec_original_to_sub_wise`. -/
noncomputable def scaleStep (dim n : ℕ) (vo2s : ℕ → ℕ) (S : Spheroid) (v : ℕ → ℝ) (ii : ℕ) : ℕ → ℝ :=
  let v := mulAt v (vo2s ii) S.x
  let v := mulAt v (vo2s (ii + n)) S.y
  if dim = 3 then mulAt v (vo2s (ii + n)) S.z else v

/-- The mapping part of `reinit` (bem_problem.cc:190-222) on a mesh with `n` nodes, `positions` the result of
`get_position_vector` followed by the hanging node constraints, a vector with `dim * n` entries. `none`: `map_vector`
is accessed out of range. -/
noncomputable def mappingReinit (dim : ℕ) (mt : MappingType) (S : Spheroid) (n : ℕ) (vo2s : ℕ → ℕ)
    (positions : ℕ → ℝ) (s : MapState) : Option MapState :=
  let s := if mt = .fe then { s with size := dim * n, mapVector := positions } else s
  if s.created then some s else
    if S.active then
      if dim * n ≤ s.size then
        some { s with created := true, mapVector := (List.range n).foldl (scaleStep dim n vo2s S) s.mapVector }
      else none
    else some { s with created := true }

/-! ## Singular quadratures -/

/-- `get_singular_quadrature` (bem_problem.cc:421-456): the static vector is filled at the first call with the rules of
the current element and order. A rule is represented by what determines it: its order and support point. `none`: read
outside the vector. -/
def getSingularQuadrature {P : Type} (cache : List (ℕ × P)) (order : ℕ) (support : List P) (index : ℕ) :
    List (ℕ × P) × Option (ℕ × P) :=
  let cache := if cache.length = 0 then support.map (fun p => (order, p)) else cache
  (cache, cache[index]?)

end PiBem.App
