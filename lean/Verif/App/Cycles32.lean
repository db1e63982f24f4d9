import Verif.App.Driver

/-!
# The loop of the driver in machine arithmetic

`Driver::run` with the types of the program: "Number of cycles" and the number of initial refinements are declared with `Patterns::Integer()`, so all
values of type `int` are accepted (computational_domain.cc:85, 105-108), read with `get_integer` and stored in variables of type `unsigned int`
(computational_domain.cc:137, 143, computational_domain.h:209, 213).
-/

namespace PiBem.App

/-- Values accepted by `Patterns::Integer()`: those of type `int`. -/
def Accepted (k : ℤ) : Prop := -2 ^ 31 ≤ k ∧ k < 2 ^ 31

/-- Conversion to `unsigned int` (computational_domain.cc:137, 143). -/
def toUnsigned (k : ℤ) : UInt32 := UInt32.ofInt k

/-- Body of the loop (driver.cc:105-117), with `unsigned int` counters. -/
def body32 (globalRefinement : Bool) (localCycles i : UInt32) : List Event :=
  [.reinit, .solve] ++
  (if !globalRefinement && decide (i < localCycles) then [.adaptiveRefinement, .updateTriangulation] else [])

/-- Complete executions of `for (unsigned int i = 0; i <= local_refinement_cycles; ++i)` from `i` on (driver.cc:104-118). -/
inductive Loop (g : Bool) (n : UInt32) : UInt32 → List Event → Prop
  | stop (i) : ¬ i ≤ n → Loop g n i []
  | step (i t) : i ≤ n → Loop g n (i + 1) t → Loop g n i (body32 g n i ++ t)

/-- Incomplete executions of the same loop. -/
inductive Partial (g : Bool) (n : UInt32) : UInt32 → List Event → Prop
  | here (i) : Partial g n i []
  | step (i t) : i ≤ n → Partial g n (i + 1) t → Partial g n i (body32 g n i ++ t)

/-- The part of `Driver::run` before the loop (driver.cc:85-103). -/
def prelude32 (globalRefinement : Bool) (nCycles preGlobalRefinements : UInt32) : List Event :=
  [.readDomain] ++ (if globalRefinement then [.refine nCycles.toNat] else [.refine preGlobalRefinements.toNat]) ++ [.updateTriangulation]

/-- `local_refinement_cycles` (driver.cc:85, 99). -/
def localCycles32 (globalRefinement : Bool) (nCycles : UInt32) : UInt32 := if globalRefinement then 0 else nCycles

/-- Runs that end (driver.cc:82-127), for the parameters `k` and `pre` of the input file. -/
def Completes (globalRefinement : Bool) (k pre : ℤ) (ev : List Event) : Prop :=
  ∃ t, Loop globalRefinement (localCycles32 globalRefinement (toUnsigned k)) 0 t ∧
    ev = prelude32 globalRefinement (toUnsigned k) (toUnsigned pre) ++ t ++ [.computeErrors, .output]

/-- What a run has done so far, before it leaves the loop. -/
def Reaches (globalRefinement : Bool) (k pre : ℤ) (ev : List Event) : Prop :=
  ∃ t, Partial globalRefinement (localCycles32 globalRefinement (toUnsigned k)) 0 t ∧
    ev = prelude32 globalRefinement (toUnsigned k) (toUnsigned pre) ++ t

end PiBem.App
