import Verif.Bem.Nodes

/-!
# Dofs owned by a process

The index sets set up by `BEMProblem::reinit` (bem_problem.cc:225-335): `this_cpu_set`, `vector_this_cpu_set` and the
full sparsity pattern of the direct method.
-/

namespace PiBem.Bem

/-- The loop filling the two `IndexSet`s of process `proc` (bem_problem.cc:241-269); `assoc` is
`dofs_domain_association`, `s2o` is `sub_wise_to_original`, `vo2s` is `vec_original_to_sub_wise`. -/
def cpuSets (nDofs nGrad dim : ℕ) (assoc s2o vo2s : ℕ → ℕ) (proc : ℕ) : Finset ℕ × Finset ℕ :=
  (List.range nDofs).foldl (fun (r : Finset ℕ × Finset ℕ) i =>
    if assoc i = proc then
      (insert i r.1, (List.range dim).foldl (fun v idim => insert (vo2s (nGrad / dim * idim + s2o i)) v) r.2)
    else r) (∅, ∅)

/-- `full_sparsity_pattern` of process `proc` (bem_problem.cc:349-355). -/
def fullPattern (nDofs : ℕ) (thisCpuSet : Finset ℕ) : Finset (ℕ × ℕ) :=
  (thisCpuSet.sort (· ≤ ·)).foldl (fun P i => (List.range nDofs).foldl (fun P j => insert (i, j) P) P) ∅

end PiBem.Bem
