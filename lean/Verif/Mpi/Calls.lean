import Verif.Mpi.Spmd
import Mathlib.Data.Real.Basic

/-!
# Distributed vectors and matrices

The calls of `TrilinosWrappers::MPI::Vector` and `TrilinosWrappers::SparseMatrix` as far as communication is concerned. Library
contract: an object remembers whether the last access to an element inserted a value or added to it; an access of the other kind
assembles the object first, which is a collective operation hidden in an element access; `compress` assembles the object in the
mode of the last access, or in the given mode if there was none.
-/

noncomputable section

namespace PiBem.Mpi

/-- The distributed vectors and matrices of a run. -/
inductive Obj
  | phi | dphi | tmpRhs | dirichletNodes | neumannNodes | systemRhs | sol | alpha | servPhi | servDphi | servTmp
  | prodN | prodD | rhsProdN | rhsProdD | ones | zeros | dummy | hypAlpha | error | cij (k : ℕ) | b (d : ℕ) | krylov
  | neumann | dirichlet | band | precNeumann | precDirichlet | initPrec | finalPrec
  | normals | normalsRhs | normalsMat | surfGrads | surfRhs | surfMat | grads | gradsRhs | gradsMat
  deriving DecidableEq

/-- Kind of the last access to an element since the last assembly. -/
inductive Action
  | zero | insert | add
  deriving DecidableEq

/-- Collective operations. -/
inductive Call
  | barrier | allreduceMax | bcast | summary
  | pattern (k : ℕ) -- setup of a distributed sparsity pattern
  | reinit (o : Obj) -- `reinit`, constructor with a partition, `matrix = 0`
  | assign (o : Obj) -- assignment from another distributed vector
  | assemble (o : Obj) (mode : Action) -- `GlobalAssemble`
  | norm (o : Obj)
  | product (o : Obj) -- product with a distributed matrix
  | localize (o : Obj) -- copy of all entries to every process
  | ghosts (o : Obj) -- copy of the entries a process needs
  | prec (o : Obj) -- setup of a preconditioner
  | precApply (o : Obj)
  | dot
  deriving DecidableEq

/-- Contributions and answers: a number is entry `0`. -/
abbrev Val := ℕ → ℝ

/-- Member and static variables that survive a call: `have_dirichlet_bc`, the size of the static vector `ones`
(bem_problem.cc:1560), `is_preconditioner_initialized`. -/
structure Vars where
  haveDirichlet : Bool
  onesSize : ℕ
  bandInit : Bool

/-- State of a process. -/
structure St where
  act : Obj → Action
  vars : Vars

/-- What a process does, as far as communication is concerned. -/
def M (α : Type) : Type := St → Prog Call Val (α × St)

instance : Monad M where
  pure a := fun s => .ret (a, s)
  bind m f := fun s => (m s).bind fun r => f r.1 r.2

/-- A collective operation with contribution `x`. -/
def call (c : Call) (x : Val) : M Val := fun s => .coll c x fun r => .ret (r, s)

/-- A collective operation whose answer is not looked at. -/
def sync (c : Call) : M Unit := do
  let _ ← call c fun _ => 0
  pure ()

/-- An exception that leaves the program. -/
def abort : M Unit := fun _ => .fail

/-- The variables. -/
def getVars : M Vars := fun s => .ret (s.vars, s)

/-- Assignment of the variables. -/
def setVars (v : Vars) : M Unit := fun s => .ret ((), { s with vars := v })

/-- The action of `o` becomes `a`. -/
def setAct (o : Obj) (a : Action) : M Unit := fun s => .ret ((), { s with act := Function.update s.act o a })

/-- The action of `o`. -/
def getAct (o : Obj) : M Action := fun s => .ret (s.act o, s)

/-- `o(i) = v`. -/
def setEl (o : Obj) : M Unit := do
  if (← getAct o) = .add then sync (.assemble o .add)
  setAct o .insert

/-- `o(i) += v`. -/
def addEl (o : Obj) : M Unit := do
  if (← getAct o) = .insert then sync (.assemble o .insert)
  setAct o .add

/-- `o.compress(op)`; a mode that does not match the last access is an error. -/
def compress (o : Obj) (op : Action) : M Unit := do
  let a ← getAct o
  if a = .zero ∨ a = op then
    sync (.assemble o op)
    setAct o .zero
  else abort

/-- `o.reinit(...)`, `matrix = 0`, construction of a distributed object. -/
def reinit (o : Obj) : M Unit := do
  sync (.reinit o)
  setAct o .zero

/-- Assignment from a distributed vector. -/
def assign (o : Obj) : M Unit := do
  sync (.assign o)
  setAct o .zero

/-- `if (c) m`. -/
def onlyIf (c : Prop) [Decidable c] (m : M Unit) : M Unit := if c then m else pure ()

/-- `if (c) m else m'`. -/
def either (c : Prop) [Decidable c] (m m' : M Unit) : M Unit := if c then m else m'

/-- Loop. -/
def loop {β : Type} (l : List β) (f : β → M Unit) : M Unit :=
  match l with
  | [] => pure ()
  | x :: l => do
    f x
    loop l f

end PiBem.Mpi
