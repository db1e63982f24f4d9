import Verif.Octree.Model
import Mathlib.Data.Int.Basic

/-!
# Parameters of the octree and of the expansions, as read from the input file

`BEMFMA::declare_parameters`, `BEMFMA::parse_parameters` (bem_fma.cc:73-128) and the sizes of the tables allocated with them
(bem_fma.cc:3890-3945). Library contract: `Patterns::Integer()` without bounds accepts the integers that fit in an `int`; `get_integer`
returns the number as a `long`; the conversion to `unsigned int` is modulo `2^32`.
-/

namespace PiBem.Fmm

open PiBem.Octree

/-- What `Patterns::Integer()` accepts. -/
def acceptedInt (v : ℤ) : Prop := -2 ^ 31 ≤ v ∧ v < 2 ^ 31

/-- Conversion `long` to `unsigned int`. -/
def asUnsigned (v : ℤ) : ℕ := (v % 2 ^ 32).toNat

/-- The entries `Number of Octree Levels`, `Maximum Number of Collocation Points per Childless Block`, `FMA Truncation Order` of the input
file (bem_fma.cc:77-93). -/
structure FmaFile where
  levels : ℤ
  nodes : ℤ
  order : ℤ

/-- All the entries pass the patterns: the file is not rejected (bem_fma.cc:77-93). -/
def FmaFile.accepted (F : FmaFile) : Prop := acceptedInt F.levels ∧ acceptedInt F.nodes ∧ acceptedInt F.order

/-- `num_octree_levels`, `max_num_nodes_per_block`, `trunc_order` after `parse_parameters` (bem_fma.cc:105-128), all `unsigned int`
(bem_fma.h:225, 333, 338). -/
structure FmaParams where
  levels : ℕ
  maxNodes : ℕ
  order : ℕ

/-- `BEMFMA::parse_parameters` (bem_fma.cc:105-128), without the granularity of the parallel loops. -/
def parseFma (F : FmaFile) : FmaParams where
  levels := asUnsigned F.levels
  maxNodes := asUnsigned F.nodes
  order := asUnsigned F.order

/-- Size of `startLevel`, `endLevel`, `parentList`, `numParent`, `dofs_filled_blocks`, `quad_points_filled_blocks`:
`num_octree_levels + 1` in 32 bit arithmetic (bem_fma.cc:3902-3903, 3908, 3914, 3939-3941). -/
def levelTable (P : FmaParams) : ℕ := (P.levels + 1) % 2 ^ 32

/-- Number of iterations of the loop on levels (bem_fma.cc:4030): `level` runs over `1 ≤ level < num_octree_levels + 1`. -/
def levelLoop (P : FmaParams) : ℕ := levelTable P - 1

/-- Size of the table of blocks: `num_octree_levels * n_active_cells() * n_quadrature_points`, three `unsigned int` (bem_fma.cc:3890-3898). -/
def blockTable (P : FmaParams) (nCells nq : ℕ) : ℕ := P.levels * nCells % 2 ^ 32 * nq % 2 ^ 32

/-- The input of the octree construction for given parameters: mesh and quadrature of `inp`. -/
def withParams {d : ℕ} (inp : Input d) (P : FmaParams) : Input d := { inp with levels := P.levels, maxNodes := P.maxNodes }

end PiBem.Fmm
