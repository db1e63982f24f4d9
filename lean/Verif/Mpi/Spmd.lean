import Mathlib.Logic.Relation
import Mathlib.Logic.Function.Basic
import Mathlib.Data.Fin.Basic

/-!
# Processes that communicate by collective operations

A process is a program that makes collective calls; between two calls it computes on its own. A process that reaches a call
waits; the call completes when all processes wait in the same call, and all of them get the same answer. A process in
another call, a process that has ended and a process that has failed never take part in the call the others wait for.
-/

namespace PiBem.Mpi

/-- A process: it has ended with a result, it has failed (an exception that leaves the program), or it makes the collective
call `c` with contribution `x` and goes on with the answer. -/
inductive Prog (κ ρ α : Type) where
  | ret (a : α)
  | fail
  | coll (c : κ) (x : ρ) (k : ρ → Prog κ ρ α)

namespace Prog

variable {κ ρ α β : Type}

/-- Sequencing. -/
def bind : Prog κ ρ α → (α → Prog κ ρ β) → Prog κ ρ β
  | ret a, f => f a
  | fail, _ => fail
  | coll c x k, f => coll c x fun r => (k r).bind f

end Prog

variable {κ ρ α : Type} {n : ℕ}

/-- State of the processes `0 .. n-1`: what each of them still has to do, and whether it waits in its call. -/
abbrev Sys (κ ρ α : Type) (n : ℕ) := Fin n → Prog κ ρ α × Bool

/-- Initial state of the programs `m`. -/
def start (m : Fin n → Prog κ ρ α) : Sys κ ρ α n := fun p => (m p, false)

/-- One step: a process reaches its call, or a call in which all processes wait completes; `red` is the answer of a call. -/
inductive Step (red : κ → (Fin n → ρ) → ρ) : Sys κ ρ α n → Sys κ ρ α n → Prop where
  | arrive (s : Sys κ ρ α n) (p : Fin n) (c : κ) (x : ρ) (k : ρ → Prog κ ρ α) (h : s p = (.coll c x k, false)) :
      Step red s (Function.update s p (.coll c x k, true))
  | complete (s : Sys κ ρ α n) (c : κ) (x : Fin n → ρ) (k : Fin n → ρ → Prog κ ρ α)
      (h : ∀ p, s p = (.coll c (x p) (k p), true)) : Step red s fun p => (k p (red c x), false)

/-- Executions. -/
abbrev Steps (red : κ → (Fin n → ρ) → ρ) := Relation.ReflTransGen (Step (α := α) red)

/-- A process waits in a call that cannot complete, whatever the others do: nothing can happen any more although some process
has not ended. -/
def Deadlock (red : κ → (Fin n → ρ) → ρ) (s : Sys κ ρ α n) : Prop :=
  (∀ s', ¬ Step red s s') ∧ ∃ p c x k b, s p = (.coll c x k, b)

end PiBem.Mpi
