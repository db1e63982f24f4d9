import Verif.Bem.Cycles

/-!
# Runs with local refinement

`BEMProblem::adaptive_refinement` (bem_problem.cc:3019-3037), `ComputationalDomain::update_triangulation`
(computational_domain.cc:928-967) and the loop of `Driver::run` (driver.cc:104-119) on a machine where every process has its own copy of the
triangulation (`tria` is a serial triangulation, computational_domain.h:197).
-/

noncomputable section

namespace PiBem.Bem

open PiBem.Octree PiBem.Fmm PiBem.App

/-- What the run uses of the library, as functions of their arguments, for meshes of type `T`:

* `level` (bem_problem.cc:154-222): partition, distribution and numbering of the dofs, geometry and solver on a mesh shared by `procs` processes;
* `owner` (boundary_conditions.cc:166-174): the process which holds an entry of the vectors;
* `nCells`: number of active cells;
* `kelly` (bem_problem.cc:3026-3027): `KellyErrorEstimator::estimate` with the dofs of `level procs t`, from the values at all the dofs; the argument
  is read at the dofs only (`kelly_local`);
* `mark` (bem_problem.cc:3029-3032): flags (to be refined, to be coarsened) set by `refine_and_coarsen_fixed_number`, from the estimates of the active cells and the two
  fractions;
* `execute` (bem_problem.cc:3033-3034): `prepare_coarsening_and_refinement`, `execute_coarsening_and_refinement`;
* `conform` (computational_domain.cc:932): `make_edges_conformal`.

All of them are the same functions on every process: rounding is included in them. -/
structure Library (T P : Type) (d : ℕ) where
  level : (procs : ℕ) → T → Level P d
  owner : (procs : ℕ) → [NeZero procs] → T → ℕ → Fin procs
  nCells : T → ℕ
  kelly : (procs : ℕ) → (t : T) → (ℕ → ℝ) → ℕ → ℝ
  kelly_local : ∀ procs t v v', (∀ i < (level procs t).n, v i = v' i) → kelly procs t v = kelly procs t v'
  mark : ℕ → (ℕ → ℝ) → ℝ → ℝ → ℕ → Bool × Bool
  execute : T → (ℕ → Bool × Bool) → T
  conform : T → T

/-- A vector of the library stored on `procs` processes: what each process holds, nothing at the entries of others. -/
abbrev Pieces (procs : ℕ) := Fin procs → ℕ → Option ℝ

variable {T P : Type} {d : ℕ}

/-- The vector `phi` of `BoundaryConditions` (boundary_conditions.cc:203), distributed. -/
def distribute (procs : ℕ) (owner : ℕ → Fin procs) {n : ℕ} (v : Vec n) : Pieces procs :=
  fun r i => if h : i < n then (if owner i = r then some (v ⟨i, h⟩) else none) else none

/-- `Vector<double> helper(error_vector)` (bem_problem.cc:3024): every process gets each entry from its owner. -/
def gather {procs : ℕ} (owner : ℕ → Fin procs) (v : Pieces procs) : ℕ → ℝ := fun i => (v (owner i) i).getD 0

/-- `adaptive_refinement` (bem_problem.cc:3019-3037) on one process, which holds the mesh `t`. The thresholds are the
parameters `refinement_threshold`, `coarsening_threshold` (bem_problem.cc:567-568). -/
def adaptiveRefinement (lib : Library T P d) (procs : ℕ) [NeZero procs] (top bottom : ℝ) (t : T) (error : Pieces procs) : T :=
  let helper := gather (lib.owner procs t) error
  let estimated := lib.kelly procs t helper
  lib.execute t (lib.mark (lib.nCells t) estimated top bottom)

/-- Result of a solve, with the mesh it was done on. -/
structure Outcome (lib : Library T P d) (procs : ℕ) where
  mesh : T
  sol : Solution (lib.level procs mesh).n

/-- All the processes: the copies of the mesh and what survives from cycle to cycle (equal on all processes as long as they work on equal
meshes; kept once, as in `RunState`). -/
structure Machine (T P : Type) (procs : ℕ) where
  mesh : Fin procs → T
  st : RunState P

/-- Body of the loop (driver.cc:104-119), `refine` is the condition of line 111. `reinit` and `solve_problem` (boundary_conditions.cc:158-200, with Dirichlet nodes: the shift of line
190 is left out) are collective: they need equal meshes on
all processes (`none` otherwise: the processes would wait for each other or exchange unrelated entries), or fail by themselves. -/
def loopBody (lib : Library T P d) (p : RunParams P) (procs : ℕ) [NeZero procs] (top bottom : ℝ) (refine : Bool) (s : Machine T P procs) :
    Option (Machine T P procs × Outcome lib procs) :=
  open Classical in
  if ∀ r, s.mesh r = s.mesh 0 then
    let t := s.mesh 0
    let c := cycle p s.st (lib.level procs t)
    c.2.map fun R =>
      let phi := distribute procs (lib.owner procs t) R.phi
      (⟨if refine then fun r => lib.conform (adaptiveRefinement lib procs top bottom (s.mesh r) phi) else s.mesh, c.1⟩, ⟨t, R⟩)
  else none

/-- The loop for `i` from 0 to `k` included (driver.cc:104-119): all passes but the last refine. -/
def runLoop (lib : Library T P d) (p : RunParams P) (procs : ℕ) [NeZero procs] (top bottom : ℝ) : ℕ → Machine T P procs →
    Option (Machine T P procs × Outcome lib procs)
  | 0, s => loopBody lib p procs top bottom false s
  | k + 1, s => (loopBody lib p procs top bottom true s).bind fun x => runLoop lib p procs top bottom k x.1

/-- A run with `k` local refinement cycles (driver.cc:82-127) from the mesh `t0` which `read_domain`, `refine_and_resize` and `update_triangulation` leave on every process. -/
def adaptiveRun (lib : Library T P d) (p : RunParams P) (procs : ℕ) [NeZero procs] (top bottom : ℝ) (k : ℕ) (t0 : T) :
    Option (Machine T P procs × Outcome lib procs) :=
  runLoop lib p procs top bottom k ⟨fun _ => t0, RunState.init⟩

end PiBem.Bem
