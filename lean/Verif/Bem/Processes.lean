import Verif.Bem.Ownership
import Verif.Bem.Gradient

/-!
# Dofs, ghost entries and stored solutions of a process

`BEMProblem::reinit` associates the dofs with the processes and sets up the ghost entries of a process (bem_problem.cc:225-233, 319-323);
`compute_gradients` and `compute_surface_gradients` read the vectors with these ghost entries (bem_problem.cc:2271-2274, 2362-2363,
2430-2431, 2505); the end of `solve_system` stores the solution on each process (bem_problem.cc:1789-1809).
-/

noncomputable section

namespace PiBem.Bem

/-- `DoFTools::get_subdomain_association` (bem_problem.cc:228-231). Library contract: loop over the cells; a dof that has
no subdomain yet gets the one of the cell, a dof on an interface gets the smaller number. `none` is `invalid_subdomain_id`. `sub c` is the subdomain and `dofs c` are the dofs of cell `c`. -/
def associate (nCells : ℕ) (sub : ℕ → ℕ) (dofs : ℕ → List ℕ) : ℕ → Option ℕ :=
  (List.range nCells).foldl (fun a c => (dofs c).foldl (fun a i => Function.update a i (match a i with
    | none => some (sub c)
    | some s => if s > sub c then some (sub c) else some s)) a) fun _ => none

/-- `ghosted_set = DoFTools::dof_indices_with_subdomain_association(dh, this_mpi_process)` (bem_problem.cc:319-323). Library contract:
the dofs of the cells of the subdomain. -/
def ghostedSet (nCells : ℕ) (sub : ℕ → ℕ) (dofs : ℕ → List ℕ) (proc : ℕ) : Finset ℕ :=
  (List.range nCells).foldl (fun S c => if sub c = proc then (dofs c).foldl (fun S i => insert i S) S else S) ∅

/-- The vector `phi(ghosted_set); phi.reinit(glob_phi, false, true)` on a process (bem_problem.cc:2271-2274, 2430-2431): the entries of
`x` at `G` are present, other entries are not. -/
def ghosted (G : Finset ℕ) (x : ℕ → ℝ) : ℕ → Option ℝ := fun i => if i ∈ G then some (x i) else none

/-- `fe_v.get_function_values(x, ...)` at quadrature point `q` (bem_problem.cc:2363); `none`: an entry that is not on the process is
accessed. -/
def readValues {d : ℕ} (C : Grad.Cell d) (x : ℕ → Option ℝ) (q : ℕ) : Option ℝ :=
  (C.sdofs.mapM x).map fun v => ∑ j ∈ Finset.range C.sdofs.length, v.getD j 0 * C.sshape j q

/-- `fe_v.get_function_gradients(x, ...)` at quadrature point `q` (bem_problem.cc:2362, 2505). -/
def readGradients {d : ℕ} (C : Grad.Cell d) (x : ℕ → Option ℝ) (q : ℕ) : Option (Fin d → ℝ) :=
  (C.sdofs.mapM x).map fun v => fun k => ∑ j ∈ Finset.range C.sdofs.length, v.getD j 0 * C.sgrad j q k

/-- `IndexSet::nth_index_in_set`; `none`: there is no such element. -/
def nthIndexInSet (s : Finset ℕ) (k : ℕ) : Option ℕ := (s.sort (· ≤ ·))[k]?

/-- End of `solve_system` on the process that owns the dofs `own` (bem_problem.cc:1789-1807), with the assignments of the
first owned entries to themselves. `phi`, `dphi` are the contents before. `none`: an element of the empty set is accessed. -/
def storeOn (n : ℕ) (own : Finset ℕ) (dirichletNodes sol phi dphi : ℕ → ℝ) : Option ((ℕ → ℝ) × (ℕ → ℝ)) :=
  let o := (List.range n).foldl (fun (o : (ℕ → ℝ) × (ℕ → ℝ)) i =>
    if i ∈ own then
      if dirichletNodes i = 0 then (Function.update o.1 i (sol i), o.2) else (o.1, Function.update o.2 i (sol i))
    else o) (phi, dphi)
  (nthIndexInSet own 0).map fun f => (Function.update o.1 f (o.1 f), Function.update o.2 f (o.2 f))

/-- The dofs of process `p` (bem_problem.cc:225-269): `dofs_domain_association` is `associate`. -/
def ownedBy (n nGrad dim nCells : ℕ) (sub : ℕ → ℕ) (dofs : ℕ → List ℕ) (s2o vo2s : ℕ → ℕ) (p : ℕ) : Finset ℕ :=
  (cpuSets n nGrad dim (fun i => ((associate nCells sub dofs i).getD 4294967295)) s2o vo2s p).1

end PiBem.Bem
