import Mathlib.Data.List.Basic
import Mathlib.Data.Option.Basic
import Mathlib.Logic.Function.Basic
import Mathlib.Tactic.Common

/-!
# Copies of expansions: heap model

Objects own a heap array through a raw pointer. A freed or never allocated address is `none` in the heap; a
cell with indeterminate content is `none` in the array. Undefined behaviour (use after free, double free, copy
from NULL, use of an indeterminate value) is the outcome `none` of a step. Simplifications: addresses are not
reused by the allocator (this only makes the model stricter); data members that are plain values (`p`, centre, table
pointer, flag) are kept together in `tag`, from which the length of the array is computed.
-/

namespace PiBem.Expansion.Heap

variable {T α : Type}

/-- A `MultipoleExpansion` or `LocalExpansion` object (multipole_expansion.h:30-43, local_expansion.h:27-38):
`tag` are the members `p`, `center`, `assLegFunction`, `is_zero`, `ptr` is `_M_n_m` / `_L_n_m` (`none` = NULL). -/
structure Obj (T : Type) where
  tag : T
  ptr : Option ℕ

/-- Objects, heap arrays and next fresh address. -/
structure State (T α : Type) where
  objs : ℕ → Option (Obj T)
  heap : ℕ → Option (List (Option α))
  next : ℕ

/-- Which class: the two differ in `operator=`. -/
inductive Kind
  | multipole
  | localExp
deriving DecidableEq

/-- Calls made by the user on named objects. `modify` stands for any of the `Add*` methods and `SetCoeff`,
`AddToCoeff` : it reads all the coefficients of objects `x` and (possibly) `y` and writes those of `x`
(multipole_expansion.cc:74-261, local_expansion.cc:82-248). -/
inductive Op (T α : Type)
  | defaultCtor (x : ℕ) (tag : T)
  | ctor (x : ℕ) (tag : T) (zero : α)
  | copyCtor (x y : ℕ)
  | assign (x y : ℕ)
  | modify (x y : ℕ) (tag : T → T → T) (g : List α → List α → ℕ → α)
  | destroy (x : ℕ)

/-- All the cells of an array, if none is indeterminate. -/
def readAll (l : List (Option α)) : Option (List α) := l.mapM id

/-- Allocation of `new std::complex<double>[n]`: fresh address, indeterminate cells. -/
def State.alloc (s : State T α) (n : ℕ) : ℕ × State T α :=
  (s.next, { s with heap := Function.update s.heap s.next (some (List.replicate n none)), next := s.next + 1 })

/-- `delete[] p` for a pointer that is not NULL: undefined if the address is not allocated. -/
def State.free (s : State T α) (a : ℕ) : Option (State T α) :=
  match s.heap a with
  | none => none
  | some _ => some { s with heap := Function.update s.heap a none }

/-- `memcpy` of the `n` cells of the array at `src` (may be NULL) to the array at `dst`. -/
def State.copyCells (s : State T α) (dst : ℕ) (src : Option ℕ) (n : ℕ) : Option (State T α) := do
  let a ← src
  let l ← s.heap a
  let d ← s.heap dst
  if l.length < n ∨ d.length < n then none
  else some { s with heap := Function.update s.heap dst (some (l.take n ++ d.drop n)) }

def State.setObj (s : State T α) (x : ℕ) (o : Option (Obj T)) : State T α :=
  { s with objs := Function.update s.objs x o }

/-- Deletion of the old array by `operator=`: multipole_expansion.cc:57-58; there is no such line in
local_expansion.cc:64-78. -/
def State.dropOld (s : State T α) : Kind → Option ℕ → Option (State T α)
  | .multipole, some a => s.free a
  | _, _ => some s

/-- One call. `len` is the length of the array for given data members, `(p+1)*(p+2)/2`. -/
def step (kind : Kind) (len : T → ℕ) (s : State T α) : Op T α → Option (State T α)
  -- multipole_expansion.cc:12-20, local_expansion.cc:18-26
  | .defaultCtor x t => if (s.objs x).isSome then none else some (s.setObj x (some ⟨t, none⟩))
  -- multipole_expansion.cc:23-35, local_expansion.cc:29-42
  | .ctor x t z =>
    if (s.objs x).isSome then none
    else
      let (a, s1) := s.alloc (len t)
      some ({ s1 with heap := Function.update s1.heap a (some (List.replicate (len t) (some z))) }.setObj x
        (some ⟨t, some a⟩))
  -- multipole_expansion.cc:37-47, local_expansion.cc:44-56
  | .copyCtor x y =>
    if (s.objs x).isSome then none
    else do
      let o ← s.objs y
      let (a, s1) := s.alloc (len o.tag)
      let s2 ← s1.copyCells a o.ptr (len o.tag)
      some (s2.setObj x (some ⟨o.tag, some a⟩))
  -- multipole_expansion.cc:51-65, local_expansion.cc:64-78. The members are overwritten first, then (multipole
  -- only) the old array is deleted, a new one allocated and the coefficients of `other` copied; when `other`
  -- is the object itself, `other.GetCoeffs()` is already the new array.
  | .assign x y => do
    let o ← s.objs y
    let me ← s.objs x
    let s0 ← s.dropOld kind me.ptr
    let (a, s1) := s0.alloc (len o.tag)
    let s2 := s1.setObj x (some ⟨o.tag, some a⟩)
    let o' ← s2.objs y
    s2.copyCells a o'.ptr (len o.tag)
  | .modify x y tg g => do
    let me ← s.objs x
    let ot ← s.objs y
    let a ← me.ptr
    let b ← ot.ptr
    let la ← s.heap a
    let lb ← s.heap b
    let va ← readAll la
    let vb ← readAll lb
    let la' := (List.range la.length).map (fun i => some (g va vb i))
    some ({ s with heap := Function.update s.heap a (some la') }.setObj x (some ⟨tg me.tag ot.tag, some a⟩))
  -- multipole_expansion.cc:68-72, local_expansion.cc:58-62
  | .destroy x => do
    let o ← s.objs x
    match o.ptr with
    | none => some (s.setObj x none)
    | some a => do
      let s1 ← s.free a
      some (s1.setObj x none)

/-- A history of calls. -/
def run (kind : Kind) (len : T → ℕ) (s : State T α) : List (Op T α) → Option (State T α)
  | [] => some s
  | o :: os => (step kind len s o).bind (fun s' => run kind len s' os)

/-- No object, empty heap. -/
def State.init : State T α := ⟨fun _ => none, fun _ => none, 0⟩

end PiBem.Expansion.Heap
