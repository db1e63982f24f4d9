import Verif.App.Domain
import Mathlib.Data.Real.Basic

/-!
# Set up of the domain

`ComputationalDomain::parse_parameters` (lists of boundary ids), `read_domain` (manifold of the sphere) and the part of
`refine_and_resize` that looks for CAD files (source/computational_domain.cc).
-/

namespace PiBem.App.Setup

open PiBem.App

/-! ## Lists of ids -/

/-- Remove the spaces in front. -/
def trimLeft : List Char → List Char := List.dropWhile (· == ' ')

/-- Remove the spaces at the end. -/
def trimRight (s : List Char) : List Char := (trimLeft s.reverse).reverse

/-- The loop of `Utilities::split_string_list` (deal.II, library contract): cut at the first comma, until nothing is
left. -/
def splitLoop : (fuel : ℕ) → List Char → List (List Char)
  | 0, _ => []
  | _, [] => []
  | fuel + 1, s => trimRight (trimLeft (s.takeWhile (· != ','))) :: splitLoop fuel ((s.dropWhile (· != ',')).drop 1)

/-- `Utilities::split_string_list(s)`: spaces at the end of the list are removed first. -/
def splitStringList (s : List Char) : List (List Char) := splitLoop (s.length + 1) (trimRight s)

/-- `reader >> value` for an unsigned integer of 32 bits: white space is skipped, the digits are read; too large numbers
give the largest one, no digit gives 0. Signs are not modelled (`Patterns::Integer(0)` rejects negative numbers). -/
def readUnsigned (s : List Char) : ℕ :=
  min (((s.dropWhile Char.isWhitespace).takeWhile Char.isDigit).foldl (fun v c => 10 * v + (c.toNat - 48)) 0) (2 ^ 32 - 1)

/-- The loops filling `dirichlet_boundary_ids` and `neumann_boundary_ids` (computational_domain.cc:158-174). -/
def parseIds (s : List Char) : List ℕ := (splitStringList s).map readUnsigned

/-! ## CAD files -/

/-- Name of the file with number `ii` (computational_domain.cc:567-568, 587-588): `kind` is `Color` or `Curve`. -/
def cadFile (path kind : String) (ii : ℕ) : String := path ++ kind ++ "_" ++ toString ii ++ ".iges"

/-- The loop over the files (computational_domain.cc:563-581, 583-601) from number `ii` on with the numbers `acc` of the
files already read: it stops at the first file that cannot be opened. The counter is not modelled as 32 bits. -/
inductive CadLoop (good : String → Prop) (path kind : String) : ℕ → List ℕ → List ℕ → Prop
  | stop (ii : ℕ) (acc : List ℕ) (h : ¬ good (cadFile path kind ii)) : CadLoop good path kind ii acc acc
  | next (ii : ℕ) (acc r : List ℕ) (h : good (cadFile path kind ii))
      (hr : CadLoop good path kind (ii + 1) (acc ++ [ii]) r) : CadLoop good path kind ii acc r

/-- The loops computing `max_tol` (computational_domain.cc:604-617): tolerances of the surfaces, then of the curves. -/
noncomputable def maxTol (surfaces curves : List ℝ) : ℝ := curves.foldl max (surfaces.foldl max 0)

/-- `tolerance` given to the projectors (computational_domain.cc:619). -/
noncomputable def projTol (ratio : ℝ) (surfaces curves : List ℝ) : ℝ := ratio * maxTol surfaces curves

/-! ## Where new vertices are put -/

/-- Description of the surface on which the new vertices of an object (cell or line) are put. -/
inductive Place
  | flat
  | sphere
  | cad (m : Manifold)
  deriving DecidableEq

/-- `read_domain` (computational_domain.cc:260-268): manifold ids of the objects and `used_spherical_manifold`. -/
def readDomain {Obj : Type} (name : String) (ids : Obj → ℕ) : (Obj → ℕ) × Bool :=
  if name = "../grids/coarse_sphere" ∨ name = "../grids/coarse_sphere_double_nodes" ∨ name = "../grids/circle" then
    (fun _ => 0, true)
  else (ids, false)

/-- Manifolds attached after `read_domain` and the part of `refine_and_resize` for CAD
(computational_domain.cc:264-266, 561, 643-652); `cad` is `use_cad_surface_and_curves`, and false in dimension 2, where
CAD is not looked at (computational_domain.cc:538-553). Children inherit the id of their parent (library contract). -/
def placeOf {Obj : Type} (name : String) (ids : Obj → ℕ) (cad : Bool) (nSurfaces nCurves : ℕ) (o : Obj) : Place :=
  let r := readDomain name ids
  match (if cad then setManifolds nSurfaces nCurves (fun _ => none) else fun _ => none) (r.1 o) with
  | some m => .cad m
  | none => if r.2 && r.1 o == 0 then .sphere else .flat

end PiBem.App.Setup
