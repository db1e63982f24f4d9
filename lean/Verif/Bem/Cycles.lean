import Verif.Bem.Solve
import Verif.App.Driver
import Verif.Octree.History

/-!
# The cycles of a run

One cycle of the loop of `Driver::run` (driver.cc:103-119) is `BEMProblem::reinit` followed by the solution of the problem on the
current mesh. The objects live for the whole run, so a cycle finds in them what the earlier cycles left. What is
assigned again by every cycle before being read is not in the state; what is kept is

* the static vectors of `compute_alpha` (bem_problem.cc:1560),
* `dof_to_elems` (bem_fma.cc:3988-3995),
* `mapping` and `map_vector` (bem_problem.cc:190-222),
* the static singular quadratures (bem_problem.cc:429).

Dimension 3.
-/

noncomputable section

namespace PiBem.Bem

open PiBem.Octree PiBem.Fmm PiBem.App

/-- Parameters constant during a run: method (bem_problem.cc:484), mapping type, spheroid, order of the singular
quadratures and support points of the element, parameters of the octree. -/
structure RunParams (P : Type) where
  method : Method
  mappingType : MappingType
  spheroid : Spheroid
  order : ℕ
  support : List P
  levels : ℕ
  maxNodes : ℕ

/-- What the mapping determines on a mesh: positions of support and quadrature points, double nodes, normals, weights and shape functions (`data`), mapped singular quadratures of the fast
multipole and of the dense method, the latter from the reference rules of the local dofs, data of `solve`, vectors
prepared by `prepare_bem_vectors`. -/
structure Geometry (P : Type) (n d : ℕ) where
  pos : ℕ → Pt 3
  qpos : ℕ × ℕ → Pt 3
  doubles : ℕ → Finset ℕ
  data : Data
  fmaRule : SingRule
  denseRule : List (Option (ℕ × P)) → SingRule
  setup : Setup n d
  phi0 : Vec n
  dphi0 : Vec n

/-- One mesh of a run with its numbering: `part` identifies the partition of the dofs among the processes,
`positions` is the result of `get_position_vector` and of the hanging node
constraints, `geom` the geometry for the mapping: `some v` is `MappingFEField` with the vector `v`, `none` is
`MappingQ`. `gmres` is the linear solver. -/
structure Level (P : Type) (d : ℕ) where
  n : ℕ
  part : ℕ
  mesh : Mesh
  nq : ℕ
  vo2s : ℕ → ℕ
  positions : ℕ → ℝ
  geom : Option (ℕ → ℝ) → Geometry P n d
  gmres : (Vec n → Vec n) → Vec n → Vec n

/-- What survives from a cycle to the next. -/
structure RunState (P : Type) where
  alpha : AlphaStatics
  elems : ℕ → List ℕ
  map : MapState
  quads : List (ℕ × P)

/-- State at the start of the program. -/
def RunState.init {P : Type} : RunState P := ⟨AlphaStatics.init, fun _ => [], MapState.init, []⟩

/-- What `generate_octree_blocking` and `assemble_system` see of the mesh. -/
def levelInput {P : Type} {d : ℕ} (p : RunParams P) (L : Level P d) (g : Geometry P L.n d) (elems : ℕ → List ℕ) : Input 3 where
  nDofs := L.n
  pos := g.pos
  nCells := L.mesh.active.length
  nq := L.nq
  qpos := g.qpos
  cellDofs := fun c => L.mesh.dofs (L.mesh.active.getD c 0)
  doubles := g.doubles
  levels := p.levels
  maxNodes := p.maxNodes
  oldElems := fun i => (elems i).map L.mesh.active.idxOf

/-- One cycle (driver.cc:103-111): the mapping part of `reinit` (bem_problem.cc:190-222), `generate_octree_blocking` (fast
multipole, bem_problem.cc:1851) or the singular quadratures (dense method, bem_problem.cc:421-456), `solve`. `none`: an exception or
an access out of range. -/
def cycle {P : Type} {d : ℕ} (p : RunParams P) (st : RunState P) (L : Level P d) : RunState P × Option (Solution L.n) :=
  match mappingReinit 3 p.mappingType p.spheroid L.n L.vo2s L.positions st.map with
  | none => (st, none)
  | some ms =>
    let g := L.geom (if p.mappingType = .fe then some ms.mapVector else none)
    let rules := (List.range p.support.length).map fun i => (getSingularQuadrature st.quads p.order p.support i).2
    let r := solve (levelInput p L g st.elems) g.data g.fmaRule (g.denseRule rules) { g.setup with method := p.method, part := L.part }
      L.gmres st.alpha g.phi0 g.dphi0
    ({ alpha := r.1
       elems := if p.method = .fma then pushElems st.elems L.mesh else st.elems
       map := ms
       quads := if p.method = .direct then (getSingularQuadrature st.quads p.order p.support 0).1 else st.quads }, r.2)

/-- The cycles of a run (driver.cc:103-119) on a sequence of meshes; `none` if one of them fails, which ends the program. -/
def runCycles {P : Type} {d : ℕ} (p : RunParams P) (st : RunState P) (Ls : List (Level P d)) : Option (RunState P) :=
  Ls.foldlM (fun st L => let r := cycle p st L; r.2.map fun _ => r.1) st

end PiBem.Bem
