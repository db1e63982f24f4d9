import Verif.Bem.Nodes

/-!
# Boundary data

`BoundaryConditions::prepare_bem_vectors` and the shift of `BoundaryConditions::solve_problem`
(boundary_conditions.cc).
-/

namespace PiBem.Bem

noncomputable section

variable {n d : ℕ}

/-- Data read by `prepare_bem_vectors`: the potential and the wind at the support point of every dof and the normal at
every dof (component `k` of dof `i` is read at position `vecIndex … i k`, see C35). -/
structure BoundaryData (n d : ℕ) where
  potential : Vec n
  wind : Fin n → Fin d → ℝ
  normal : Fin n → Fin d → ℝ
  dirichletIds : List ℕ
  neumannIds : List ℕ

/-- The three vectors written. -/
structure BemVectors (n : ℕ) where
  phi : Vec n
  dphi : Vec n
  tmpRhs : Vec n

/-- Body of the loop for one dof of a cell with material `mat` (boundary_conditions.cc:254-340). -/
def prepareDof (B : BoundaryData n d) (mat : ℕ) (v : BemVectors n) (i : Fin n) : BemVectors n :=
  if B.dirichletIds.any (fun k => mat == k) then
    { v with phi := Function.update v.phi i (B.potential i), tmpRhs := Function.update v.tmpRhs i (B.potential i) }
  else if B.neumannIds.any (fun k => mat == k) then
    let t := dot (B.wind i) (B.normal i)
    { v with tmpRhs := Function.update v.tmpRhs i t, dphi := Function.update v.dphi i t }
  else
    { v with tmpRhs := Function.update v.tmpRhs i 0, dphi := Function.update v.dphi i 0 }

/-- `prepare_bem_vectors` (boundary_conditions.cc:217-343) as seen on the entries owned by process `proc`: all cells
are visited, only owned dofs are written. `phi`, `dphi_dn` and `tmp_rhs` start from zero (`reinit`,
boundary_conditions.cc:173-175, 224-225). -/
def prepareLocal (B : BoundaryData n d) (cells : List (BCell n)) (own : Fin n → ℕ) (proc : ℕ) : BemVectors n :=
  cells.foldl (fun v cell => cell.dofs.foldl (fun v i => if own i = proc then prepareDof B cell.material v i else v) v)
    ⟨fun _ => 0, fun _ => 0, fun _ => 0⟩

/-- The global vectors: every entry is the one of its owner. -/
def prepareBemVectors (B : BoundaryData n d) (cells : List (BCell n)) (own : Fin n → ℕ) : BemVectors n :=
  ⟨fun i => (prepareLocal B cells own (own i)).phi i, fun i => (prepareLocal B cells own (own i)).dphi i,
    fun i => (prepareLocal B cells own (own i)).tmpRhs i⟩

/-- End of `solve_problem` (boundary_conditions.cc:183-196): without Dirichlet boundary the potential is shifted so
that it has the exact value at the first dof owned by process 0; `none` if process 0 owns no dof (the iterator
`begin()` of an empty set is dereferenced). -/
def finalShift (haveDirichletBc : Bool) (potential : Vec n) (own : Fin n → ℕ) (phi : Vec n) : Option (Vec n) :=
  if haveDirichletBc then some phi else
  match (List.finRange n).find? (fun i => own i == 0) with
  | some i0 => some (vectorShift phi (potential i0 - phi i0))
  | none => none

end

end PiBem.Bem
