import Verif.Fmm.Numeric
import Verif.Bem.Operator

/-!
# Distributed vectors in the fast multipole branch of `BEMProblem`

`multipole_matr_vect_products` adds numbers also to entries of vectors that the process does not own (bem_fma.cc:2926-2932). A
`TrilinosWrappers::MPI::Vector` without ghost entries keeps such additions aside until `compress(VectorOperation::add)` sends them to the
owner. Here `compute_alpha`, `vmult` and `compute_rhs` are modelled with these pending additions, for any number of processes.

Library contracts used: `operator+=`, `operator*=`, `scale` and assignment of a number (Epetra `Update`, `Scale`, `Multiply`, `PutScalar`)
act on the owned entries only; `reinit` makes a new vector without pending additions; `Vector<double>(v)` gathers the owned entries;
`compress(add)` adds the pending additions of the other processes to the owner's value and clears them.
-/

noncomputable section

namespace PiBem.Fmm

open PiBem.Octree PiBem.Expansion

/-- A distributed vector: `x p i` is the value of entry `i` if process `p` owns it, the pending addition of `p` to it otherwise. -/
abbrev FEVec := ℕ → ℕ → ℝ

/-- The processes `0, .., procs - 1` and the owner of every dof. -/
structure Procs where
  procs : ℕ
  owner : ℕ → ℕ

variable (C : Procs)

/-- `this_cpu_set` of process `p` (bem_problem.cc:268-280, bem_fma.cc:54-68). -/
def Procs.own (p i : ℕ) : Bool := decide (C.owner i = p)

/-- an operation on the owned entries, pending additions unchanged -/
def Procs.local (x : FEVec) (f : ℕ → ℕ → ℝ → ℝ) : FEVec := fun p i => if C.owner i = p then f p i (x p i) else x p i

/-- `v.reinit(this_cpu_set, mpi_communicator)`. -/
def feNew : FEVec := fun _ _ => 0

/-- `x = a`. -/
def Procs.put (x : FEVec) (a : ℝ) : FEVec := C.local x fun _ _ _ => a

/-- `x += y`. -/
def Procs.add (x y : FEVec) : FEVec := C.local x fun p i v => v + y p i

/-- `x *= a`. -/
def Procs.mul (x : FEVec) (a : ℝ) : FEVec := C.local x fun _ _ v => v * a

/-- `x.scale(y)`. -/
def Procs.scaleBy (x y : FEVec) : FEVec := C.local x fun p i v => v * y p i

/-- `vector_shift(x, a)` (bem_problem.cc:37-43): a loop over the locally owned elements. -/
def Procs.shift (x : FEVec) (a : ℝ) : FEVec := C.local x fun _ _ v => v + a

/-- `Vector<double>(x)`: every process gets the values of the owners (bem_fma.cc:2144-2145). -/
def Procs.gather (x : FEVec) : ℕ → ℝ := fun i => x (C.owner i) i

/-- `x.l2_norm()` of a vector with `n` entries. -/
def Procs.l2norm (n : ℕ) (x : FEVec) : ℝ := Real.sqrt (∑ i ∈ Finset.range n, C.gather x i ^ 2)

/-- `x.compress(VectorOperation::add)`. -/
def Procs.compressAdd (x : FEVec) : FEVec := fun p i =>
  if C.owner i = p then x p i + ∑ q ∈ (Finset.range C.procs).erase p, x q i else 0

/-- Members of `BEMProblem` read by the operator, as distributed vectors. -/
structure FEProblem where
  alpha : FEVec
  dirichletNodes : FEVec
  neumannNodes : FEVec
  haveDirichletBc : Bool

/-- The outputs of `fma.generate_multipole_expansions(phi, dphi)` and `fma.multipole_matr_vect_products(phi, dphi, outN, outD)` on all the
processes (bem_fma.cc:2135-2557, 2570-3250), from outputs that held `oldN`, `oldD`: the product with the near field matrix (line 2590)
overwrites the owned entries, the additions of the descending phase to other entries add to those already pending. Each process executes
any schedule of its threads. -/
def FmaProductsFE (inp : Input 3) (D : Data) (C : Procs) (phi dphi oldN oldD newN newD : FEVec) : Prop :=
  ∃ outN outD : FEVec,
    (∀ p < C.procs, NFmmExec inp { D with sol := C.gather phi } .double (build inp) (C.own p) (outN p)) ∧
    (∀ p < C.procs, NFmmExec inp { D with sol := C.gather dphi } .single (build inp) (C.own p) (outD p)) ∧
    (newN = fun p i => if C.owner i = p then outN p i else oldN p i + outN p i) ∧
    newD = fun p i => if C.owner i = p then outD p i else oldD p i + outD p i

/-- `BEMProblem::vmult`, multipole branch (bem_problem.cc:1591-1646): `dst` and `src` before the call, `dst'` after it. -/
def VmultFE (inp : Input 3) (D : Data) (C : Procs) (P : FEProblem) (dst src dst' : FEVec) : Prop :=
  let servPhi := src
  let servPhi := if P.haveDirichletBc then servPhi else C.shift servPhi (-(C.l2norm inp.nDofs servPhi))
  let servDphi := src
  let dst := C.put dst 0
  let servPhi := C.scaleBy servPhi P.neumannNodes
  let servDphi := C.scaleBy servDphi P.dirichletNodes
  ∃ matrVectProdN matrVectProdD, FmaProductsFE inp D C servPhi servDphi feNew feNew matrVectProdN matrVectProdD ∧
    let servPhi := C.scaleBy servPhi P.alpha
    let dst := C.add dst matrVectProdD
    let dst := C.mul dst (-1)
    let dst := C.add dst matrVectProdN
    let dst := C.add dst servPhi
    let dst := if P.haveDirichletBc then dst else C.shift dst (-(C.l2norm inp.nDofs dst))
    dst' = C.compressAdd dst

/-- `BEMProblem::compute_rhs`, multipole branch (bem_problem.cc:1649-1691). The static vectors are initialised again in every call (lines
1659-1660). -/
def ComputeRhsFE (inp : Input 3) (D : Data) (C : Procs) (P : FEProblem) (dst src dst' : FEVec) : Prop :=
  let servPhi := C.scaleBy src P.dirichletNodes
  let servDphi := C.scaleBy src P.neumannNodes
  ∃ matrVectProdN matrVectProdD, FmaProductsFE inp D C servPhi servDphi feNew feNew matrVectProdN matrVectProdD ∧
    let servPhi := C.scaleBy servPhi P.alpha
    let dst := C.add dst matrVectProdN
    let dst := C.add dst servPhi
    let dst := C.mul dst (-1)
    dst' = C.add dst matrVectProdD

/-- `alpha = 0` (bem_problem.cc:1712) and `BEMProblem::compute_alpha`, multipole branch (bem_problem.cc:1558-1587): `alpha` itself is the
output of the product; `ones` has all entries -1 (C51) and `dummy`, which held `dummyOld`, is not read. -/
def AlphaFE (inp : Input 3) (D : Data) (C : Procs) (alpha alpha' : FEVec) : Prop :=
  let alpha := C.put alpha 0
  let ones : FEVec := fun p i => if C.owner i = p then -1 else 0
  ∃ dummyOld dummy, FmaProductsFE inp D C ones feNew alpha dummyOld alpha' dummy

/-- The vector `alpha` after the first solve of a run and any number of further ones on the same mesh. -/
inductive AlphaHistory (inp : Input 3) (D : Data) (C : Procs) : FEVec → Prop
  | first {a : FEVec} : AlphaFE inp D C feNew a → AlphaHistory inp D C a
  | next {a a' : FEVec} : AlphaHistory inp D C a → AlphaFE inp D C a a' → AlphaHistory inp D C a'

end PiBem.Fmm
