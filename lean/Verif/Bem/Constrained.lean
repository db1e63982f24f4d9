import Mathlib.Algebra.BigOperators.Group.Finset.Basic
import Mathlib.Algebra.BigOperators.Ring.Finset
import Mathlib.Algebra.BigOperators.Fin
import Mathlib.Data.Fintype.BigOperators
import Mathlib.Data.List.FinRange
import Mathlib.Tactic.Ring
import Mathlib.Tactic.Linarith

/-!
# Constrained operators

`constrained_matrix.h`, `true_constrained_matrix.h` and the constrained rows of `BEMFMA::FMA_preconditioner`.
Vectors are functions `Fin n → R` over a commutative ring (`double` without rounding).
-/

namespace PiBem.Bem

variable {R : Type} {n : ℕ}

/-- `AffineConstraints<double>` after `close()`: for every constrained index its entries (index, coefficient) and its
inhomogeneity; `none` means unconstrained. -/
abbrev Constraints (R : Type) (n : ℕ) := Fin n → Option (List (Fin n × R) × R)

/-! ## constrained_matrix.h -/

/-- Values that a process holds in its vectors: for owned entries the value, for the others the pending
contribution to be sent to the owner by `compress(VectorOperation::add)`. -/
abbrev LocalVec (R : Type) (n : ℕ) := Fin n → R

/-- Body of the loop of `ConstrainedOperator::vmult` on process `k` (constrained_matrix.h:109-121). `own i` is the
process owning index `i`. `src` holds the values of all entries: the owned ones and the ghosts `constr_cpu_set`, which
contains all the indices of the entries of owned constrained indices (bem_problem.cc:2119-2135). -/
def vmultStep [CommRing R] (c : Constraints R n) (own : Fin n → ℕ) (k : ℕ) (src : Fin n → R)
    (dst : LocalVec R n) (i : Fin n) : LocalVec R n :=
  match c i with
  | some (entries, _) =>
    if own i = k then
      -- dst(i) += src(i) - dst(i); then dst(i) -= coefficient * loc_src(index)
      entries.foldl (fun d e => Function.update d i (d i - e.2 * src e.1))
        (Function.update dst i (dst i + (src i - dst i)))
    else Function.update dst i (dst i + 0)
  | none => Function.update dst i (dst i + 0)

/-- `ConstrainedOperator::vmult` on process `k` (constrained_matrix.h:93-121) before the final `compress`: `A` is
`matrix.vmult`, whose result on process `k` are the owned entries. -/
def vmultLocal [CommRing R] (A : (Fin n → R) → Fin n → R) (c : Constraints R n) (own : Fin n → ℕ) (k : ℕ)
    (src : Fin n → R) : LocalVec R n :=
  (List.finRange n).foldl (vmultStep c own k src) (fun i => if own i = k then A src i else 0)

/-- `dst.compress(VectorOperation::add)` (constrained_matrix.h:123): the owner of an entry adds the contributions of
the other processes `0..procs-1`. -/
def compressAdd [CommRing R] (procs : ℕ) (own : Fin n → ℕ) (loc : ℕ → LocalVec R n) : Fin n → R :=
  fun i => loc (own i) i + ∑ k ∈ (Finset.range procs).erase (own i), loc k i

/-- `ConstrainedOperator::vmult` (constrained_matrix.h:91-135) run by `procs` processes. -/
def constrainedVmult [CommRing R] (procs : ℕ) (own : Fin n → ℕ) (A : (Fin n → R) → Fin n → R)
    (c : Constraints R n) (src : Fin n → R) : Fin n → R :=
  compressAdd procs own (fun k => vmultLocal A c own k src)

/-- `ConstrainedOperator::distribute_rhs` (constrained_matrix.h:137-147): each process does its owned entries. -/
def distributeRhs (c : Constraints R n) (rhs : Fin n → R) : Fin n → R :=
  (List.finRange n).foldl (fun r i => Function.update r i (match c i with
    | some (_, g) => g
    | none => r i)) rhs

/-! ## true_constrained_matrix.h -/

/-- `constraint_vmult` (true_constrained_matrix.h:113-140), serial run. -/
def trueVmult [CommRing R] (c : Constraints R n) (dst src : Fin n → R) : Fin n → R :=
  (List.finRange n).foldl (fun d i => match c i with
    | some (entries, _) =>
      entries.foldl (fun d e => Function.update d i (d i + src e.1 * e.2)) (Function.update d i 0)
    | none => Function.update d i (src i)) dst

/-- Body of the loop of `constraint_tvmult` (true_constrained_matrix.h:148-166). -/
def tvmultStep [CommRing R] (c : Constraints R n) (src d : Fin n → R) (i : Fin n) : Fin n → R :=
  match c i with
  | some (entries, _) =>
    entries.foldl (fun d e => Function.update d e.1 (d e.1 + src i * e.2)) (Function.update d i 0)
  | none => Function.update d i (src i)

/-- `constraint_tvmult` (true_constrained_matrix.h:142-170), serial run: `loc_dst` starts from zero and is finally
added to `dst`. -/
def trueTvmult [CommRing R] (c : Constraints R n) (dst src : Fin n → R) : Fin n → R :=
  fun i => dst i + (List.finRange n).foldl (tvmultStep c src) (fun _ => 0) i

/-- `vmult` of the alternative operator (true_constrained_matrix.h:189-199): `dst` is not cleared. -/
def trueOperator [CommRing R] (A : (Fin n → R) → Fin n → R) (c : Constraints R n) (dst src : Fin n → R) : Fin n → R :=
  trueTvmult c dst (A (trueVmult c src src))

/-- `distribute_rhs` of the alternative operator (true_constrained_matrix.h:172-188), serial run:
`get_inhomogeneity` is 0 for unconstrained indices. -/
def trueDistributeRhs [CommRing R] (A : (Fin n → R) → Fin n → R) (c : Constraints R n) (rhs : Fin n → R) : Fin n → R :=
  let constraintTerm : Fin n → R := fun i => - (match c i with | some (_, g) => g | none => 0)
  let rhsTmp := A constraintTerm
  trueTvmult c (fun _ => 0) (fun i => rhs i + rhsTmp i)

/-- `finalise` (true_constrained_matrix.h:203-207): `cm.distribute(u)` sets the constrained entries, in increasing
order, from the entries of the vector and the inhomogeneity. -/
def trueFinalise [CommRing R] (c : Constraints R n) (u : Fin n → R) : Fin n → R :=
  (List.finRange n).foldl (fun d i => match c i with
    | some (entries, g) => Function.update d i (entries.foldl (fun v e => v + d e.1 * e.2) g)
    | none => d) u

/-! ## Preconditioner of the fast multipole solver -/

/-- Row `i` of `final_preconditioner` (bem_fma.cc:3405-3449 and 3518-3535): constrained rows are set entry by entry,
the others are copied from `init` on the sparsity pattern `pat`; then `alpha` is added on the diagonal of the
unconstrained Neumann rows. -/
def precRow [CommRing R] (c : Constraints R n) (pat : Fin n → Fin n → Bool) (init : Fin n → Fin n → R)
    (dirichlet : Fin n → Bool) (alpha : Fin n → R) (i : Fin n) : Fin n → R :=
  let base : Fin n → R := match c i with
    | some (entries, _) =>
      entries.foldl (fun r e => Function.update r e.1 e.2) (Function.update (fun _ => 0) i 1)
    | none => (List.finRange n).foldl (fun r j => if pat i j then Function.update r j (init i j) else r) (fun _ => 0)
  Function.update base i (base i + if dirichlet i = false ∧ c i = none then alpha i else 0)

end PiBem.Bem
