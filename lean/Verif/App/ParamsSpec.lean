import Verif.App.Params

/-!
# Specification of the parameter file

The tables a user needs: all entries with their default and admissible values, and for each member of the classes the entry
it is read from.
-/

namespace PiBem.App.Params

/-- Entries of the program in dimension 3: subsection, name, default, admissible values. -/
def entries3 : List Entry :=
  [⟨["Driver<3>"], "Set Global Refinement", "true", .bool⟩,
   ⟨["ComputationalDomain<3>"], "Input grid name", "../grids/coarse_cube_double_nodes", .anything⟩,
   ⟨["ComputationalDomain<3>"], "Input grid format", "inp", .anything⟩,
   ⟨["ComputationalDomain<3>"], "Input path to CAD files", "./", .anything⟩,
   ⟨["ComputationalDomain<3>"], "Number of cycles", "2", .integer⟩,
   ⟨["ComputationalDomain<3>"], "Max aspect ratio", "3.5", .double⟩,
   ⟨["ComputationalDomain<3>"], "Use iges surfaces and curves", "false", .bool⟩,
   ⟨["ComputationalDomain<3>"], "Cad tolerance to projectors tolerance ratio", "100", .double⟩,
   ⟨["ComputationalDomain<3>"], "Surface curvature adaptive refinement", "false", .bool⟩,
   ⟨["ComputationalDomain<3>"], "Cells per circle", "12", .double⟩,
   ⟨["ComputationalDomain<3>"], "Maximum number of curvature adaptive refinement cycles", "5", .integer⟩,
   ⟨["ComputationalDomain<3>"], "Number of global refinement to be executed before local refinement cycle", "0", .integer⟩,
   ⟨["ComputationalDomain<3>", "Boundary Conditions ID Numbers"], "Dirichlet boundary ids", "1,110,110", .idList⟩,
   ⟨["ComputationalDomain<3>", "Boundary Conditions ID Numbers"], "Neumann boundary ids", "0,110,110", .idList⟩,
   ⟨["ComputationalDomain<3>"], "Use a spheroid", "false", .bool⟩,
   ⟨["ComputationalDomain<3>"], "Axis x dimension", "2.", .double⟩,
   ⟨["ComputationalDomain<3>"], "Axis y dimension", "3.", .double⟩,
   ⟨["ComputationalDomain<3>"], "Axis z dimension", "4.", .double⟩,
   ⟨["BEMProblem<3>", "Solver"], "Max steps", "100", .integer⟩,
   ⟨["BEMProblem<3>", "Solver"], "Tolerance", "1.e-10", .double⟩,
   ⟨["BEMProblem<3>", "Solver"], "Log history", "false", .bool⟩,
   ⟨["BEMProblem<3>", "Solver"], "Log frequency", "1", .integer⟩,
   ⟨["BEMProblem<3>", "Solver"], "Log result", "true", .bool⟩,
   ⟨["BEMProblem<3>"], "Preconditioner", "ILU", (.selection ["ILU", "AMG"])⟩,
   ⟨["BEMProblem<3>"], "Solution method", "Direct", (.selection ["Direct", "FMA"])⟩,
   ⟨["BEMProblem<3>", "Quadrature rules"], "Quadrature type", "gauss", (.selection quadratureNames)⟩,
   ⟨["BEMProblem<3>", "Quadrature rules"], "Quadrature order", "4", .integer⟩,
   ⟨["BEMProblem<3>", "Quadrature rules"], "Singular quadrature order", "5", .integer⟩,
   ⟨["BEMProblem<3>"], "Mapping Type", "FE", (.selection ["FE", "Q"])⟩,
   ⟨["BEMProblem<3>"], "Mapping Q Degree", "1", .integer⟩,
   ⟨["BEMProblem<3>"], "Continuos gradient across edges", "true", .bool⟩,
   ⟨["BEMProblem<3>", "Scalar Finite Element"], "Finite Element type", "FEQ", (.selection ["FEQ", "FEDGQ"])⟩,
   ⟨["BEMProblem<3>", "Scalar Finite Element"], "Finite element order", "1", .integer⟩,
   ⟨["BEMProblem<3>", "Vector Finite Element"], "Finite Element type", "FEQ", (.selection ["FEQ", "FEDGQ"])⟩,
   ⟨["BEMProblem<3>", "Vector Finite Element"], "Finite element order", "1", .integer⟩,
   ⟨["BEMProblem<3>", "Grid Refinement"], "Coarsening threshold", "0.03", .double⟩,
   ⟨["BEMProblem<3>", "Grid Refinement"], "Refinement threshold", "0.3", .double⟩,
   ⟨["BEMFMA<3>", "Octree Params"], "Number of Octree Levels", "10", .integer⟩,
   ⟨["BEMFMA<3>", "Octree Params"], "Maximum Number of Collocation Points per Childless Block", "20", .integer⟩,
   ⟨["BEMFMA<3>", "FMA Params"], "FMA Truncation Order", "6", .integer⟩,
   ⟨["BEMFMA<3>", "FMA Params"], "Granularity for TBB simple for cycles", "10", .integer⟩,
   ⟨["BoundaryConditions<3>"], "Output file name", "result", .anything⟩,
   ⟨["BoundaryConditions<3>", "Wind function 2d"], "Variable names", "x,y,t", .anything⟩,
   ⟨["BoundaryConditions<3>", "Wind function 2d"], "Function expression", "1; 1", .anything⟩,
   ⟨["BoundaryConditions<3>", "Wind function 2d"], "Function constants", "", .anything⟩,
   ⟨["BoundaryConditions<3>", "Wind function 3d"], "Variable names", "x,y,z,t", .anything⟩,
   ⟨["BoundaryConditions<3>", "Wind function 3d"], "Function expression", "1; 1; 1", .anything⟩,
   ⟨["BoundaryConditions<3>", "Wind function 3d"], "Function constants", "", .anything⟩,
   ⟨["BoundaryConditions<3>", "Potential 2d"], "Variable names", "x,y,t", .anything⟩,
   ⟨["BoundaryConditions<3>", "Potential 2d"], "Function expression", "x+y", .anything⟩,
   ⟨["BoundaryConditions<3>", "Potential 2d"], "Function constants", "", .anything⟩,
   ⟨["BoundaryConditions<3>", "Potential 3d"], "Variable names", "x,y,z,t", .anything⟩,
   ⟨["BoundaryConditions<3>", "Potential 3d"], "Function expression", "x+y+z", .anything⟩,
   ⟨["BoundaryConditions<3>", "Potential 3d"], "Function constants", "", .anything⟩]

/-- Entries of the program in dimension 2. -/
def entries2 : List Entry :=
  [⟨["Driver<2>"], "Set Global Refinement", "true", .bool⟩,
   ⟨["ComputationalDomain<2>"], "Input grid name", "../grids/circle", .anything⟩,
   ⟨["ComputationalDomain<2>"], "Input grid format", "inp", .anything⟩,
   ⟨["ComputationalDomain<2>"], "Input path to CAD files", "./", .anything⟩,
   ⟨["ComputationalDomain<2>"], "Number of cycles", "2", .integer⟩,
   ⟨["ComputationalDomain<2>"], "Max aspect ratio", "3.5", .double⟩,
   ⟨["ComputationalDomain<2>"], "Use iges surfaces and curves", "false", .bool⟩,
   ⟨["ComputationalDomain<2>"], "Cad tolerance to projectors tolerance ratio", "100", .double⟩,
   ⟨["ComputationalDomain<2>"], "Surface curvature adaptive refinement", "false", .bool⟩,
   ⟨["ComputationalDomain<2>"], "Cells per circle", "12", .double⟩,
   ⟨["ComputationalDomain<2>"], "Maximum number of curvature adaptive refinement cycles", "5", .integer⟩,
   ⟨["ComputationalDomain<2>"], "Number of global refinement to be executed before local refinement cycle", "0", .integer⟩,
   ⟨["ComputationalDomain<2>", "Boundary Conditions ID Numbers"], "Dirichlet boundary ids", "1,110,110", .idList⟩,
   ⟨["ComputationalDomain<2>", "Boundary Conditions ID Numbers"], "Neumann boundary ids", "0,110,110", .idList⟩,
   ⟨["ComputationalDomain<2>"], "Use a spheroid", "false", .bool⟩,
   ⟨["ComputationalDomain<2>"], "Axis x dimension", "2.", .double⟩,
   ⟨["ComputationalDomain<2>"], "Axis y dimension", "3.", .double⟩,
   ⟨["ComputationalDomain<2>"], "Axis z dimension", "4.", .double⟩,
   ⟨["BEMProblem<2>", "Solver"], "Max steps", "100", .integer⟩,
   ⟨["BEMProblem<2>", "Solver"], "Tolerance", "1.e-10", .double⟩,
   ⟨["BEMProblem<2>", "Solver"], "Log history", "false", .bool⟩,
   ⟨["BEMProblem<2>", "Solver"], "Log frequency", "1", .integer⟩,
   ⟨["BEMProblem<2>", "Solver"], "Log result", "true", .bool⟩,
   ⟨["BEMProblem<2>"], "Preconditioner", "ILU", (.selection ["ILU", "AMG"])⟩,
   ⟨["BEMProblem<2>"], "Solution method", "Direct", (.selection ["Direct", "FMA"])⟩,
   ⟨["BEMProblem<2>", "Quadrature rules"], "Quadrature type", "gauss", (.selection quadratureNames)⟩,
   ⟨["BEMProblem<2>", "Quadrature rules"], "Quadrature order", "4", .integer⟩,
   ⟨["BEMProblem<2>", "Quadrature rules"], "Singular quadrature order", "5", .integer⟩,
   ⟨["BEMProblem<2>"], "Mapping Type", "FE", (.selection ["FE", "Q"])⟩,
   ⟨["BEMProblem<2>"], "Mapping Q Degree", "1", .integer⟩,
   ⟨["BEMProblem<2>"], "Continuos gradient across edges", "true", .bool⟩,
   ⟨["BEMProblem<2>", "Scalar Finite Element"], "Finite Element type", "FEQ", (.selection ["FEQ", "FEDGQ"])⟩,
   ⟨["BEMProblem<2>", "Scalar Finite Element"], "Finite element order", "1", .integer⟩,
   ⟨["BEMProblem<2>", "Vector Finite Element"], "Finite Element type", "FEQ", (.selection ["FEQ", "FEDGQ"])⟩,
   ⟨["BEMProblem<2>", "Vector Finite Element"], "Finite element order", "1", .integer⟩,
   ⟨["BEMProblem<2>", "Grid Refinement"], "Coarsening threshold", "0.03", .double⟩,
   ⟨["BEMProblem<2>", "Grid Refinement"], "Refinement threshold", "0.3", .double⟩,
   ⟨["BEMFMA<2>", "Octree Params"], "Number of Octree Levels", "10", .integer⟩,
   ⟨["BEMFMA<2>", "Octree Params"], "Maximum Number of Collocation Points per Childless Block", "20", .integer⟩,
   ⟨["BEMFMA<2>", "FMA Params"], "FMA Truncation Order", "6", .integer⟩,
   ⟨["BEMFMA<2>", "FMA Params"], "Granularity for TBB simple for cycles", "10", .integer⟩,
   ⟨["BoundaryConditions<2>"], "Output file name", "result", .anything⟩,
   ⟨["BoundaryConditions<2>", "Wind function 2d"], "Variable names", "x,y,t", .anything⟩,
   ⟨["BoundaryConditions<2>", "Wind function 2d"], "Function expression", "1; 1", .anything⟩,
   ⟨["BoundaryConditions<2>", "Wind function 2d"], "Function constants", "", .anything⟩,
   ⟨["BoundaryConditions<2>", "Wind function 3d"], "Variable names", "x,y,z,t", .anything⟩,
   ⟨["BoundaryConditions<2>", "Wind function 3d"], "Function expression", "1; 1; 1", .anything⟩,
   ⟨["BoundaryConditions<2>", "Wind function 3d"], "Function constants", "", .anything⟩,
   ⟨["BoundaryConditions<2>", "Potential 2d"], "Variable names", "x,y,t", .anything⟩,
   ⟨["BoundaryConditions<2>", "Potential 2d"], "Function expression", "x+y", .anything⟩,
   ⟨["BoundaryConditions<2>", "Potential 2d"], "Function constants", "", .anything⟩,
   ⟨["BoundaryConditions<2>", "Potential 3d"], "Variable names", "x,y,z,t", .anything⟩,
   ⟨["BoundaryConditions<2>", "Potential 3d"], "Function expression", "x+y+z", .anything⟩,
   ⟨["BoundaryConditions<2>", "Potential 3d"], "Function constants", "", .anything⟩]

def entries (dim : ℕ) : List Entry := if dim = 3 then entries3 else entries2

/-- A member and the entry it is read from. -/
structure Row where
  member : String
  kind : Kind
  path : Path
  name : String
  deriving DecidableEq

def Row.key (r : Row) : Path × String := (r.path, r.name)

/-- Members in dimension 3. -/
def table3 : List Row :=
  [⟨"global_refinement", .bool, ["Driver<3>"], "Set Global Refinement"⟩,
   ⟨"input_grid_name", .str, ["ComputationalDomain<3>"], "Input grid name"⟩,
   ⟨"input_grid_format", .str, ["ComputationalDomain<3>"], "Input grid format"⟩,
   ⟨"input_cad_path", .str, ["ComputationalDomain<3>"], "Input path to CAD files"⟩,
   ⟨"n_cycles", .uint, ["ComputationalDomain<3>"], "Number of cycles"⟩,
   ⟨"max_element_aspect_ratio", .dbl, ["ComputationalDomain<3>"], "Max aspect ratio"⟩,
   ⟨"use_cad_surface_and_curves", .bool, ["ComputationalDomain<3>"], "Use iges surfaces and curves"⟩,
   ⟨"surface_curvature_refinement", .bool, ["ComputationalDomain<3>"], "Surface curvature adaptive refinement"⟩,
   ⟨"cells_per_circle", .dbl, ["ComputationalDomain<3>"], "Cells per circle"⟩,
   ⟨"pre_global_refinements", .uint, ["ComputationalDomain<3>"], "Number of global refinement to be executed before local refinement cycle"⟩,
   ⟨"max_curvature_ref_cycles", .uint, ["ComputationalDomain<3>"], "Maximum number of curvature adaptive refinement cycles"⟩,
   ⟨"cad_to_projectors_tolerance_ratio", .dbl, ["ComputationalDomain<3>"], "Cad tolerance to projectors tolerance ratio"⟩,
   ⟨"spheroid_bool", .bool, ["ComputationalDomain<3>"], "Use a spheroid"⟩,
   ⟨"spheroid_x_axis", .dbl, ["ComputationalDomain<3>"], "Axis x dimension"⟩,
   ⟨"spheroid_y_axis", .dbl, ["ComputationalDomain<3>"], "Axis y dimension"⟩,
   ⟨"spheroid_z_axis", .dbl, ["ComputationalDomain<3>"], "Axis z dimension"⟩,
   ⟨"dirichlet_boundary_ids", .str, ["ComputationalDomain<3>", "Boundary Conditions ID Numbers"], "Dirichlet boundary ids"⟩,
   ⟨"neumann_boundary_ids", .str, ["ComputationalDomain<3>", "Boundary Conditions ID Numbers"], "Neumann boundary ids"⟩,
   ⟨"solver_control.max_steps", .uint, ["BEMProblem<3>", "Solver"], "Max steps"⟩,
   ⟨"solver_control.tolerance", .dbl, ["BEMProblem<3>", "Solver"], "Tolerance"⟩,
   ⟨"solver_control.log_history", .bool, ["BEMProblem<3>", "Solver"], "Log history"⟩,
   ⟨"solver_control.log_result", .bool, ["BEMProblem<3>", "Solver"], "Log result"⟩,
   ⟨"solver_control.log_frequency", .uint, ["BEMProblem<3>", "Solver"], "Log frequency"⟩,
   ⟨"preconditioner_type", .str, ["BEMProblem<3>"], "Preconditioner"⟩,
   ⟨"solution_method", .str, ["BEMProblem<3>"], "Solution method"⟩,
   ⟨"quadrature.type", .str, ["BEMProblem<3>", "Quadrature rules"], "Quadrature type"⟩,
   ⟨"quadrature.order", .uint, ["BEMProblem<3>", "Quadrature rules"], "Quadrature order"⟩,
   ⟨"quadrature_order", .uint, ["BEMProblem<3>", "Quadrature rules"], "Quadrature order"⟩,
   ⟨"singular_quadrature_order", .uint, ["BEMProblem<3>", "Quadrature rules"], "Singular quadrature order"⟩,
   ⟨"mapping_type", .str, ["BEMProblem<3>"], "Mapping Type"⟩,
   ⟨"mapping_degree", .uint, ["BEMProblem<3>"], "Mapping Q Degree"⟩,
   ⟨"continuos_gradient", .bool, ["BEMProblem<3>"], "Continuos gradient across edges"⟩,
   ⟨"scalar_fe_type", .str, ["BEMProblem<3>", "Scalar Finite Element"], "Finite Element type"⟩,
   ⟨"scalar_fe_order", .uint, ["BEMProblem<3>", "Scalar Finite Element"], "Finite element order"⟩,
   ⟨"vector_fe_type", .str, ["BEMProblem<3>", "Vector Finite Element"], "Finite Element type"⟩,
   ⟨"vector_fe_order", .uint, ["BEMProblem<3>", "Vector Finite Element"], "Finite element order"⟩,
   ⟨"coarsening_threshold", .dbl, ["BEMProblem<3>", "Grid Refinement"], "Coarsening threshold"⟩,
   ⟨"refinement_threshold", .dbl, ["BEMProblem<3>", "Grid Refinement"], "Refinement threshold"⟩,
   ⟨"num_octree_levels", .uint, ["BEMFMA<3>", "Octree Params"], "Number of Octree Levels"⟩,
   ⟨"max_num_nodes_per_block", .uint, ["BEMFMA<3>", "Octree Params"], "Maximum Number of Collocation Points per Childless Block"⟩,
   ⟨"trunc_order", .uint, ["BEMFMA<3>", "FMA Params"], "FMA Truncation Order"⟩,
   ⟨"tbb_granularity", .uint, ["BEMFMA<3>", "FMA Params"], "Granularity for TBB simple for cycles"⟩,
   ⟨"output_file_name", .str, ["BoundaryConditions<3>"], "Output file name"⟩,
   ⟨"wind.variables", .str, ["BoundaryConditions<3>", "Wind function 3d"], "Variable names"⟩,
   ⟨"wind.expression", .str, ["BoundaryConditions<3>", "Wind function 3d"], "Function expression"⟩,
   ⟨"wind.constants", .str, ["BoundaryConditions<3>", "Wind function 3d"], "Function constants"⟩,
   ⟨"potential.variables", .str, ["BoundaryConditions<3>", "Potential 3d"], "Variable names"⟩,
   ⟨"potential.expression", .str, ["BoundaryConditions<3>", "Potential 3d"], "Function expression"⟩,
   ⟨"potential.constants", .str, ["BoundaryConditions<3>", "Potential 3d"], "Function constants"⟩]

/-- Members in dimension 2. -/
def table2 : List Row :=
  [⟨"global_refinement", .bool, ["Driver<2>"], "Set Global Refinement"⟩,
   ⟨"input_grid_name", .str, ["ComputationalDomain<2>"], "Input grid name"⟩,
   ⟨"input_grid_format", .str, ["ComputationalDomain<2>"], "Input grid format"⟩,
   ⟨"input_cad_path", .str, ["ComputationalDomain<2>"], "Input path to CAD files"⟩,
   ⟨"n_cycles", .uint, ["ComputationalDomain<2>"], "Number of cycles"⟩,
   ⟨"max_element_aspect_ratio", .dbl, ["ComputationalDomain<2>"], "Max aspect ratio"⟩,
   ⟨"use_cad_surface_and_curves", .bool, ["ComputationalDomain<2>"], "Use iges surfaces and curves"⟩,
   ⟨"surface_curvature_refinement", .bool, ["ComputationalDomain<2>"], "Surface curvature adaptive refinement"⟩,
   ⟨"cells_per_circle", .dbl, ["ComputationalDomain<2>"], "Cells per circle"⟩,
   ⟨"pre_global_refinements", .uint, ["ComputationalDomain<2>"], "Number of global refinement to be executed before local refinement cycle"⟩,
   ⟨"max_curvature_ref_cycles", .uint, ["ComputationalDomain<2>"], "Maximum number of curvature adaptive refinement cycles"⟩,
   ⟨"cad_to_projectors_tolerance_ratio", .dbl, ["ComputationalDomain<2>"], "Cad tolerance to projectors tolerance ratio"⟩,
   ⟨"spheroid_bool", .bool, ["ComputationalDomain<2>"], "Use a spheroid"⟩,
   ⟨"spheroid_x_axis", .dbl, ["ComputationalDomain<2>"], "Axis x dimension"⟩,
   ⟨"spheroid_y_axis", .dbl, ["ComputationalDomain<2>"], "Axis y dimension"⟩,
   ⟨"spheroid_z_axis", .dbl, ["ComputationalDomain<2>"], "Axis z dimension"⟩,
   ⟨"dirichlet_boundary_ids", .str, ["ComputationalDomain<2>", "Boundary Conditions ID Numbers"], "Dirichlet boundary ids"⟩,
   ⟨"neumann_boundary_ids", .str, ["ComputationalDomain<2>", "Boundary Conditions ID Numbers"], "Neumann boundary ids"⟩,
   ⟨"solver_control.max_steps", .uint, ["BEMProblem<2>", "Solver"], "Max steps"⟩,
   ⟨"solver_control.tolerance", .dbl, ["BEMProblem<2>", "Solver"], "Tolerance"⟩,
   ⟨"solver_control.log_history", .bool, ["BEMProblem<2>", "Solver"], "Log history"⟩,
   ⟨"solver_control.log_result", .bool, ["BEMProblem<2>", "Solver"], "Log result"⟩,
   ⟨"solver_control.log_frequency", .uint, ["BEMProblem<2>", "Solver"], "Log frequency"⟩,
   ⟨"preconditioner_type", .str, ["BEMProblem<2>"], "Preconditioner"⟩,
   ⟨"solution_method", .str, ["BEMProblem<2>"], "Solution method"⟩,
   ⟨"quadrature.type", .str, ["BEMProblem<2>", "Quadrature rules"], "Quadrature type"⟩,
   ⟨"quadrature.order", .uint, ["BEMProblem<2>", "Quadrature rules"], "Quadrature order"⟩,
   ⟨"quadrature_order", .uint, ["BEMProblem<2>", "Quadrature rules"], "Quadrature order"⟩,
   ⟨"singular_quadrature_order", .uint, ["BEMProblem<2>", "Quadrature rules"], "Singular quadrature order"⟩,
   ⟨"mapping_type", .str, ["BEMProblem<2>"], "Mapping Type"⟩,
   ⟨"mapping_degree", .uint, ["BEMProblem<2>"], "Mapping Q Degree"⟩,
   ⟨"continuos_gradient", .bool, ["BEMProblem<2>"], "Continuos gradient across edges"⟩,
   ⟨"scalar_fe_type", .str, ["BEMProblem<2>", "Scalar Finite Element"], "Finite Element type"⟩,
   ⟨"scalar_fe_order", .uint, ["BEMProblem<2>", "Scalar Finite Element"], "Finite element order"⟩,
   ⟨"vector_fe_type", .str, ["BEMProblem<2>", "Vector Finite Element"], "Finite Element type"⟩,
   ⟨"vector_fe_order", .uint, ["BEMProblem<2>", "Vector Finite Element"], "Finite element order"⟩,
   ⟨"coarsening_threshold", .dbl, ["BEMProblem<2>", "Grid Refinement"], "Coarsening threshold"⟩,
   ⟨"refinement_threshold", .dbl, ["BEMProblem<2>", "Grid Refinement"], "Refinement threshold"⟩,
   ⟨"num_octree_levels", .uint, ["BEMFMA<2>", "Octree Params"], "Number of Octree Levels"⟩,
   ⟨"max_num_nodes_per_block", .uint, ["BEMFMA<2>", "Octree Params"], "Maximum Number of Collocation Points per Childless Block"⟩,
   ⟨"trunc_order", .uint, ["BEMFMA<2>", "FMA Params"], "FMA Truncation Order"⟩,
   ⟨"tbb_granularity", .uint, ["BEMFMA<2>", "FMA Params"], "Granularity for TBB simple for cycles"⟩,
   ⟨"output_file_name", .str, ["BoundaryConditions<2>"], "Output file name"⟩,
   ⟨"wind.variables", .str, ["BoundaryConditions<2>", "Wind function 2d"], "Variable names"⟩,
   ⟨"wind.expression", .str, ["BoundaryConditions<2>", "Wind function 2d"], "Function expression"⟩,
   ⟨"wind.constants", .str, ["BoundaryConditions<2>", "Wind function 2d"], "Function constants"⟩,
   ⟨"potential.variables", .str, ["BoundaryConditions<2>", "Potential 2d"], "Variable names"⟩,
   ⟨"potential.expression", .str, ["BoundaryConditions<2>", "Potential 2d"], "Function expression"⟩,
   ⟨"potential.constants", .str, ["BoundaryConditions<2>", "Potential 2d"], "Function constants"⟩]

def table (dim : ℕ) : List Row := if dim = 3 then table3 else table2

/-- The assignments of a file with their full subsection, in order. -/
def assigns : Path → List Op → List ((Path × String) × String)
  | _, [] => []
  | p, .enter s :: F => assigns (p ++ [s]) F
  | p, .leave :: F => assigns p.dropLast F
  | p, .declare _ _ _ :: F => assigns p F
  | p, .set n v :: F => ((p, n), v) :: assigns p F

/-- The last value assigned to an entry. -/
def lastValue (A : List ((Path × String) × String)) (k : Path × String) : Option String :=
  ((A.filter fun a => a.1 = k).getLast?).map Prod.snd

/-- The subsections entered by a file. -/
def visited : Path → List Op → List Path
  | _, [] => []
  | p, .enter s :: F => (p ++ [s]) :: visited (p ++ [s]) F
  | p, .leave :: F => visited p.dropLast F
  | p, .declare _ _ _ :: F => visited p F
  | p, .set _ _ :: F => visited p F

/-- Every `end` closes a subsection and every subsection is closed; there are only `subsection`, `end` and `set` lines. -/
def balanced : Path → List Op → Prop
  | p, [] => p = []
  | p, .enter s :: F => balanced (p ++ [s]) F
  | p, .leave :: F => p ≠ [] ∧ balanced p.dropLast F
  | _, .declare _ _ _ :: _ => False
  | p, .set _ _ :: F => balanced p F

/-- The files without errors: subsections exist, and every assignment is to an existing entry, with an admissible
value. -/
def Valid (dim : ℕ) (F : List Op) : Prop :=
  balanced [] F ∧ (∀ q ∈ visited [] F, ∃ e ∈ entries dim, q <+: e.path) ∧
    ∀ a ∈ assigns [] F, ∃ e ∈ entries dim, (e.path, e.name) = a.1 ∧ e.pat.ok a.2 = true

/-- The value of an entry after a file: the last one assigned, or the default. -/
def valueAfter (dim : ℕ) (F : List Op) (k : Path × String) (v : String) : Prop :=
  ∃ e ∈ entries dim, (e.path, e.name) = k ∧ v = (lastValue (assigns [] F) k).getD e.value

/-- What the text of an entry means for a member of each type. -/
def Means : Kind → String → Val → Prop
  | .str, s, v => v = .str s
  | .uint, s, v => ∃ (z : ℤ) (n : ℕ), readInt s.toList = some z ∧ -2 ^ 31 ≤ z ∧ z < 2 ^ 31 ∧ v = .uint n ∧
      (0 ≤ z → (n : ℤ) = z) ∧ (z < 0 → (n : ℤ) = 2 ^ 32 + z)
  | .dbl, s, v => isDouble s = true ∧ v = .dbl s
  | .bool, s, v => (s = "true" ∧ v = .bool true) ∨ (s = "false" ∧ v = .bool false)

end PiBem.App.Params
