import Verif.App.Setup
import Mathlib.Data.List.Basic
import Mathlib.Data.Int.Basic

/-!
# The parameter file

`declare_parameters` and `parse_parameters` of the five classes, as executed by `ParameterAcceptor::initialize`
(main.cc:27) on a model of `ParameterHandler`: entries with a value and a pattern, in nested subsections. Library contracts:
`ParameterHandler` (`declare_entry`, `set`, `get`, `enter_subsection`, reading of a file), the section of a class is its name,
the classes are registered in the order of construction, `SolverControl` and `Functions::ParsedFunction` declare and read
the entries given here. Comments, line continuation, includes and white space of the file are not modelled: a file is the list of
its `subsection`, `end` and `set` lines.
-/

namespace PiBem.App.Params

/-- Patterns used in the project. -/
inductive Pattern
  | integer
  | double
  | bool
  | anything
  | selection (names : List String)
  | idList
  deriving DecidableEq

def digitVal (c : Char) : ℕ := c.toNat - 48

/-- A nonempty list of digits. -/
def readNat (s : List Char) : Option ℕ :=
  if s ≠ [] ∧ s.all Char.isDigit then some (s.foldl (fun v c => 10 * v + digitVal c) 0) else none

/-- An integer with optional sign. -/
def readInt : List Char → Option ℤ
  | '-' :: s => (readNat s).map fun k => -(k : ℤ)
  | '+' :: s => (readNat s).map fun k => (k : ℤ)
  | s => (readNat s).map fun k => (k : ℤ)

/-- `Patterns::Integer()`: an `int`. -/
def isInt (s : String) : Bool :=
  match readInt s.toList with
  | some z => decide (-2 ^ 31 ≤ z ∧ z < 2 ^ 31)
  | none => false

/-- Digits, perhaps a point, digits. -/
def isMantissa (s : List Char) : Bool :=
  let a := s.takeWhile Char.isDigit
  let r := s.dropWhile Char.isDigit
  match r with
  | [] => !a.isEmpty
  | '.' :: t => t.all Char.isDigit && !(a.isEmpty && t.isEmpty)
  | _ => false

def unsigned : List Char → List Char
  | '-' :: s => s
  | '+' :: s => s
  | s => s

/-- `Patterns::Double()`: decimal numbers with optional exponent (`inf`, `nan` and hexadecimal numbers are not
modelled). -/
def isDouble (s : String) : Bool :=
  let t := unsigned s.toList
  isMantissa (t.takeWhile (fun c => c != 'e' && c != 'E')) &&
    match t.dropWhile (fun c => c != 'e' && c != 'E') with
    | [] => true
    | _ :: e => (readNat (unsigned e)).isSome

/-- Does a value match a pattern. `idList` is `Patterns::List(Patterns::Integer(0))`; signs in its numbers are not modelled. -/
def Pattern.ok : Pattern → String → Bool
  | .integer, s => isInt s
  | .double, s => isDouble s
  | .bool, s => decide (s = "true" ∨ s = "false")
  | .anything, _ => true
  | .selection l, s => decide (s ∈ l)
  | .idList, s => (Setup.splitStringList s.toList).all fun t => (readNat t).any fun k => decide (k < 2 ^ 31)

/-- A subsection: names from the outermost one. -/
abbrev Path := List String

structure Entry where
  path : Path
  name : String
  value : String
  pat : Pattern
  deriving DecidableEq

def Entry.key (e : Entry) : Path × String := (e.path, e.name)

/-- State of the handler: current subsection and entries. -/
structure Prm where
  path : Path
  db : List Entry
  deriving DecidableEq

/-- Operations while declaring and while reading a file. -/
inductive Op
  | enter (s : String)
  | leave
  | declare (name default : String) (pat : Pattern)
  | set (name value : String)
  deriving DecidableEq

/-- The value of an entry is replaced. -/
def setValue (db : List Entry) (k : Path × String) (v : String) : List Entry :=
  db.map fun e => if e.key = k then { e with value := v } else e

/-- One operation of `ParameterHandler` in the program; `none`: an exception is thrown. -/
def step (P : Prm) : Op → Option Prm
  | .enter s => some { P with path := P.path ++ [s] }
  | .leave => if P.path = [] then none else some { P with path := P.path.dropLast }
  | .declare n d p =>
      if p.ok d then
        some { P with db := P.db.filter (fun e => e.key ≠ (P.path, n)) ++ [⟨P.path, n, d, p⟩] }
      else none
  | .set n v =>
      match P.db.find? (fun e => e.key = (P.path, n)) with
      | none => none
      | some e => if e.pat.ok v then some { P with db := setValue P.db (P.path, n) v } else none

def exec : Prm → List Op → Option Prm
  | P, [] => some P
  | P, o :: os => (step P o).bind fun P' => exec P' os

/-- One line of the file: unlike in the program, entering a subsection that was not declared throws, and nothing can be
declared. -/
def fileStep (P : Prm) : Op → Option Prm
  | .enter s => if P.db.any (fun e => (P.path ++ [s]).isPrefixOf e.path) then some { P with path := P.path ++ [s] } else none
  | .declare _ _ _ => none
  | o => step P o

def fileExec : Prm → List Op → Option Prm
  | P, [] => some P
  | P, o :: os => (fileStep P o).bind fun P' => fileExec P' os

/-- `prm.parse_input(file)`: the subsection must be left at the end. -/
def parseInput (P : Prm) (F : List Op) : Option Prm :=
  (fileExec P F).bind fun P' => if P'.path = P.path then some P' else none

/-! ## Declarations -/

def section_ (s : String) (ops : List Op) : List Op := .enter s :: ops ++ [.leave]

/-- `SolverControl::declare_parameters` (library). -/
def declSolver : List Op :=
  [.declare "Max steps" "100" .integer, .declare "Tolerance" "1.e-10" .double, .declare "Log history" "false" .bool,
   .declare "Log frequency" "1" .integer, .declare "Log result" "true" .bool]

/-- `Functions::ParsedFunction<d>::declare_parameters(prm, n)` (library). -/
def declFunction (vars zero : String) : List Op :=
  [.declare "Variable names" vars .anything, .declare "Function expression" zero .anything,
   .declare "Function constants" "" .anything]

/-- `QuadratureSelector::get_quadrature_names` (library). -/
def quadratureNames : List String :=
  ["gauss", "gauss_lobatto", "gauss_chebyshev", "midpoint", "milne", "simpson", "trapezoidal", "weddle"]

/-- `Driver::declare_parameters` (driver.cc:64-69). -/
def declDriver : List Op := [.declare "Set Global Refinement" "true" .bool]

/-- `ComputationalDomain::declare_parameters` (computational_domain.cc:67-128). -/
def declDomain (dim : ℕ) : List Op :=
  [.declare "Input grid name" (if dim = 3 then "../grids/coarse_cube_double_nodes" else "../grids/circle") .anything,
   .declare "Input grid format" "inp" .anything,
   .declare "Input path to CAD files" "./" .anything,
   .declare "Number of cycles" "2" .integer,
   .declare "Max aspect ratio" "3.5" .double,
   .declare "Use iges surfaces and curves" "false" .bool,
   .declare "Cad tolerance to projectors tolerance ratio" "100" .double,
   .declare "Surface curvature adaptive refinement" "false" .bool,
   .declare "Cells per circle" "12" .double,
   .declare "Maximum number of curvature adaptive refinement cycles" "5" .integer,
   .declare "Number of global refinement to be executed before local refinement cycle" "0" .integer] ++
  section_ "Boundary Conditions ID Numbers"
    [.declare "Dirichlet boundary ids" "1,110,110" .idList, .declare "Neumann boundary ids" "0,110,110" .idList] ++
  [.declare "Use a spheroid" "false" .bool,
   .declare "Axis x dimension" "2." .double,
   .declare "Axis y dimension" "3." .double,
   .declare "Axis z dimension" "4." .double]

/-- `BEMProblem::declare_parameters` (bem_problem.cc:458-521). -/
def declBem : List Op :=
  section_ "Solver" declSolver ++
  [.declare "Preconditioner" "ILU" (.selection ["ILU", "AMG"]),
   .declare "Solution method" "Direct" (.selection ["Direct", "FMA"])] ++
  section_ "Quadrature rules"
    [.declare "Quadrature type" "gauss" (.selection quadratureNames),
     .declare "Quadrature order" "4" .integer, .declare "Singular quadrature order" "5" .integer] ++
  [.declare "Mapping Type" "FE" (.selection ["FE", "Q"]),
   .declare "Mapping Q Degree" "1" .integer,
   .declare "Continuos gradient across edges" "true" .bool] ++
  section_ "Scalar Finite Element"
    [.declare "Finite Element type" "FEQ" (.selection ["FEQ", "FEDGQ"]), .declare "Finite element order" "1" .integer] ++
  section_ "Vector Finite Element"
    [.declare "Finite Element type" "FEQ" (.selection ["FEQ", "FEDGQ"]), .declare "Finite element order" "1" .integer] ++
  section_ "Grid Refinement"
    [.declare "Coarsening threshold" "0.03" .double, .declare "Refinement threshold" "0.3" .double]

/-- `BEMFMA::declare_parameters` (bem_fma.cc:73-101). -/
def declFma : List Op :=
  section_ "Octree Params"
    [.declare "Number of Octree Levels" "10" .integer,
     .declare "Maximum Number of Collocation Points per Childless Block" "20" .integer] ++
  section_ "FMA Params" [.declare "FMA Truncation Order" "6" .integer] ++
  section_ "FMA Params" [.declare "Granularity for TBB simple for cycles" "10" .integer]

/-- `BoundaryConditions::declare_parameters` (boundary_conditions.cc:33-67): the functions of both dimensions. -/
def declBoundary : List Op :=
  [.declare "Output file name" "result" .anything] ++
  section_ "Wind function 2d" (declFunction "x,y,t" "0; 0" ++ [.set "Function expression" "1; 1"]) ++
  section_ "Wind function 3d" (declFunction "x,y,z,t" "0; 0; 0" ++ [.set "Function expression" "1; 1; 1"]) ++
  section_ "Potential 2d" (declFunction "x,y,t" "0" ++ [.set "Function expression" "x+y"]) ++
  section_ "Potential 3d" (declFunction "x,y,z,t" "0" ++ [.set "Function expression" "x+y+z"])

/-- Section of a class. -/
def sec (cls : String) (dim : ℕ) : String := cls ++ "<" ++ (if dim = 3 then "3" else "2") ++ ">"

/-- `ParameterAcceptor::declare_all_parameters`, in the order of construction (driver.cc:19-27, bem_problem.h:449). -/
def declareAll (dim : ℕ) : List Op :=
  section_ (sec "Driver" dim) declDriver ++ section_ (sec "ComputationalDomain" dim) (declDomain dim) ++
  section_ (sec "BEMProblem" dim) declBem ++ section_ (sec "BEMFMA" dim) declFma ++
  section_ (sec "BoundaryConditions" dim) declBoundary

/-- The handler when the file is read. -/
def declared (dim : ℕ) : Option Prm := exec ⟨[], []⟩ (declareAll dim)

/-! ## Reading of the values -/

/-- `prm.get`, `prm.get_integer` assigned to an `unsigned int`, `prm.get_double`, `prm.get_bool`. -/
inductive Kind
  | str
  | uint
  | dbl
  | bool
  deriving DecidableEq

/-- Value of a member. A floating point number is given by its text. -/
inductive Val
  | str (s : String)
  | uint (n : ℕ)
  | dbl (s : String)
  | bool (b : Bool)
  deriving DecidableEq

/-- Conversion of the text of an entry; `none`: an exception is thrown. -/
def convert : Kind → String → Option Val
  | .str, s => some (.str s)
  | .uint, s => (readInt s.toList).map fun z => .uint (z % 2 ^ 32).toNat
  | .dbl, s => if isDouble s then some (.dbl s) else none
  | .bool, s => if s = "true" ∨ s = "yes" then some (.bool true) else if s = "false" ∨ s = "no" then some (.bool false) else none

/-- Operations while reading: the last one stores the value of an entry in a member of the class. -/
inductive ROp
  | enter (s : String)
  | leave
  | get (kind : Kind) (name : String) (member : String)
  deriving DecidableEq

/-- The reading phase: members with their values, in order. -/
def readAll (db : List Entry) : Path → List ROp → Option (List (String × Val))
  | _, [] => some []
  | p, .enter s :: os => readAll db (p ++ [s]) os
  | p, .leave :: os => if p = [] then none else readAll db p.dropLast os
  | p, .get k n m :: os =>
      match db.find? (fun e => e.key = (p, n)) with
      | none => none
      | some e => (convert k e.value).bind fun v => (readAll db p os).map fun r => (m, v) :: r

def rsection (s : String) (ops : List ROp) : List ROp := .enter s :: ops ++ [.leave]

/-- `Driver::parse_parameters` (driver.cc:71-76). -/
def parseDriver : List ROp := [.get .bool "Set Global Refinement" "global_refinement"]

/-- `ComputationalDomain::parse_parameters` (computational_domain.cc:130-184). The lists of ids are cut afterwards (C104). -/
def parseDomain : List ROp :=
  [.get .str "Input grid name" "input_grid_name",
   .get .str "Input grid format" "input_grid_format",
   .get .str "Input path to CAD files" "input_cad_path",
   .get .uint "Number of cycles" "n_cycles",
   .get .dbl "Max aspect ratio" "max_element_aspect_ratio",
   .get .bool "Use iges surfaces and curves" "use_cad_surface_and_curves",
   .get .bool "Surface curvature adaptive refinement" "surface_curvature_refinement",
   .get .dbl "Cells per circle" "cells_per_circle",
   .get .uint "Number of global refinement to be executed before local refinement cycle" "pre_global_refinements",
   .get .uint "Maximum number of curvature adaptive refinement cycles" "max_curvature_ref_cycles",
   .get .dbl "Cad tolerance to projectors tolerance ratio" "cad_to_projectors_tolerance_ratio",
   .get .bool "Use a spheroid" "spheroid_bool",
   .get .dbl "Axis x dimension" "spheroid_x_axis",
   .get .dbl "Axis y dimension" "spheroid_y_axis",
   .get .dbl "Axis z dimension" "spheroid_z_axis"] ++
  rsection "Boundary Conditions ID Numbers"
    [.get .str "Dirichlet boundary ids" "dirichlet_boundary_ids", .get .str "Neumann boundary ids" "neumann_boundary_ids"]

/-- `SolverControl::parse_parameters` (library). -/
def parseSolver : List ROp :=
  [.get .uint "Max steps" "solver_control.max_steps", .get .dbl "Tolerance" "solver_control.tolerance",
   .get .bool "Log history" "solver_control.log_history", .get .bool "Log result" "solver_control.log_result",
   .get .uint "Log frequency" "solver_control.log_frequency"]

/-- `BEMProblem::parse_parameters` (bem_problem.cc:523-571). -/
def parseBem : List ROp :=
  rsection "Solver" parseSolver ++
  [.get .str "Preconditioner" "preconditioner_type", .get .str "Solution method" "solution_method"] ++
  rsection "Quadrature rules"
    [.get .str "Quadrature type" "quadrature.type", .get .uint "Quadrature order" "quadrature.order",
     .get .uint "Quadrature order" "quadrature_order", .get .uint "Singular quadrature order" "singular_quadrature_order"] ++
  [.get .str "Mapping Type" "mapping_type", .get .uint "Mapping Q Degree" "mapping_degree",
   .get .bool "Continuos gradient across edges" "continuos_gradient"] ++
  rsection "Scalar Finite Element"
    [.get .str "Finite Element type" "scalar_fe_type", .get .uint "Finite element order" "scalar_fe_order"] ++
  rsection "Vector Finite Element"
    [.get .str "Finite Element type" "vector_fe_type", .get .uint "Finite element order" "vector_fe_order"] ++
  rsection "Grid Refinement"
    [.get .dbl "Coarsening threshold" "coarsening_threshold", .get .dbl "Refinement threshold" "refinement_threshold"]

/-- `BEMFMA::parse_parameters` (bem_fma.cc:103-126). -/
def parseFma : List ROp :=
  rsection "Octree Params"
    [.get .uint "Number of Octree Levels" "num_octree_levels",
     .get .uint "Maximum Number of Collocation Points per Childless Block" "max_num_nodes_per_block"] ++
  rsection "FMA Params" [.get .uint "FMA Truncation Order" "trunc_order"] ++
  rsection "FMA Params" [.get .uint "Granularity for TBB simple for cycles" "tbb_granularity"]

/-- `Functions::ParsedFunction::parse_parameters` (library); the expressions are interpreted afterwards. -/
def parseFunction (m : String) : List ROp :=
  [.get .str "Variable names" (m ++ ".variables"), .get .str "Function expression" (m ++ ".expression"),
   .get .str "Function constants" (m ++ ".constants")]

/-- `BoundaryConditions::parse_parameters` (boundary_conditions.cc:69-89): the functions of the dimension of the
program. -/
def parseBoundary (dim : ℕ) : List ROp :=
  [.get .str "Output file name" "output_file_name"] ++
  rsection ("Wind function " ++ (if dim = 3 then "3" else "2") ++ "d") (parseFunction "wind") ++
  rsection ("Potential " ++ (if dim = 3 then "3" else "2") ++ "d") (parseFunction "potential")

/-- `ParameterAcceptor::parse_all_parameters`. -/
def parseAll (dim : ℕ) : List ROp :=
  rsection (sec "Driver" dim) parseDriver ++ rsection (sec "ComputationalDomain" dim) parseDomain ++
  rsection (sec "BEMProblem" dim) parseBem ++ rsection (sec "BEMFMA" dim) parseFma ++
  rsection (sec "BoundaryConditions" dim) (parseBoundary dim)

/-- `ParameterAcceptor::initialize` for an existing file `F`: the members afterwards, or `none` if an exception is thrown,
and the program ends with code 1 (main.cc:31-45). -/
def initParams (dim : ℕ) (F : List Op) : Option (List (String × Val)) :=
  (declared dim).bind fun P => (parseInput P F).bind fun P' => readAll P'.db [] (parseAll dim)

/-! ## Quadrature rules -/

/-- A rule: points and weights are not modelled. -/
inductive Rule
  | gauss (n : ℕ)
  | other (name : String) (n : ℕ)
  deriving DecidableEq

/-- `QuadratureSelector(type, order)` (library): `none` is an exception. The families of Gauss need at least two points, the
others no order. -/
def selector (name : String) (n : ℕ) : Option Rule :=
  if name = "gauss" then (if 2 ≤ n then some (.gauss n) else none)
  else if name = "gauss_lobatto" then (if 2 ≤ n then some (.other name n) else none)
  else if name = "gauss_chebyshev" then (if 1 ≤ n then some (.other name n) else none)
  else if n = 0 then some (.other name 0) else none

/-- Rule of the dense matrices (bem_problem.cc:538-540). -/
def directRule (type : String) (order : ℕ) : Option Rule := selector type order

/-- Rule of the fast multipole method (bem_fma.cc:3863-3864), once the selector has not thrown. -/
def fmaRule (type : String) (order : ℕ) : Option Rule := (selector type order).map fun _ => .gauss order

end PiBem.App.Params
