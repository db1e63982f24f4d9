import Verif.Octree.Model

/-! A concrete input used in refutations and in the examples beside the theorems. -/

namespace PiBem.Octree

/-- Surface of the cube `[-1,1]^3`: 8 vertices, 6 cells, one quadrature point (the face centre) per
cell. Used as a concrete instance. -/
def cubeInput (L m : ℕ) : Input 3 where
  nDofs := 8
  pos := fun i => ![if i % 2 = 0 then -1 else 1, if i / 2 % 2 = 0 then -1 else 1,
    if i / 4 % 2 = 0 then -1 else 1]
  nCells := 6
  nq := 1
  qpos := fun q => match q.1 with
    | 0 => ![-1, 0, 0] | 1 => ![1, 0, 0] | 2 => ![0, -1, 0] | 3 => ![0, 1, 0]
    | 4 => ![0, 0, -1] | _ => ![0, 0, 1]
  cellDofs := fun c => match c with
    | 0 => [0, 2, 4, 6] | 1 => [1, 3, 5, 7] | 2 => [0, 1, 4, 5] | 3 => [2, 3, 6, 7]
    | 4 => [0, 1, 2, 3] | _ => [4, 5, 6, 7]
  doubles := fun i => {i}
  levels := L
  maxNodes := m

/-- Boundary of the square `[-1,1]^2`: 4 vertices, 4 cells, one quadrature point per cell. -/
def squareInput (L m : ℕ) : Input 2 where
  nDofs := 4
  pos := fun i => ![if i % 2 = 0 then -1 else 1, if i / 2 % 2 = 0 then -1 else 1]
  nCells := 4
  nq := 1
  qpos := fun q => match q.1 with
    | 0 => ![0, -1] | 1 => ![1, 0] | 2 => ![0, 1] | _ => ![-1, 0]
  cellDofs := fun c => match c with
    | 0 => [0, 1] | 1 => [1, 3] | 2 => [3, 2] | _ => [2, 0]
  doubles := fun i => {i}
  levels := L
  maxNodes := m

/-- Three nodes on a line and two cells, with a leaf of level 2 next to leaves of level 3. -/
def lineInput : Input 3 where
  nDofs := 3
  pos := fun i => match i with
    | 0 => ![-1, -1, -1] | 1 => ![-1 / 2, -1, -1] | _ => ![-1 / 10, -1, -1]
  nCells := 2
  nq := 1
  qpos := fun q => match q.1 with
    | 0 => ![-3 / 4, -1, -1] | _ => ![-1 / 10, -1, -1]
  cellDofs := fun c => match c with
    | 0 => [0, 1] | _ => [2]
  doubles := fun i => {i}
  levels := 3
  maxNodes := 1

/-- Four nodes on a line, one cell around each. -/
def line4Input : Input 3 where
  nDofs := 4
  pos := fun i => match i with
    | 0 => ![-1, -1, -1] | 1 => ![-3 / 10, -1, -1] | 2 => ![3 / 10, -1, -1] | _ => ![1, -1, -1]
  nCells := 4
  nq := 1
  qpos := fun q => match q.1 with
    | 0 => ![-1, -1, -1] | 1 => ![-3 / 10, -1, -1] | 2 => ![3 / 10, -1, -1] | _ => ![1, -1, -1]
  cellDofs := fun c => [c]
  doubles := fun i => {i}
  levels := 2
  maxNodes := 1

end PiBem.Octree
