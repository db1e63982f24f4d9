import Verif.Legendre.Table

/-!
# The class `AssLegFunction` (source/ass_leg_function.cc:1-535)
-/

namespace PiBem.Legendre

/-- Outcome of a call: a number, a result that is not a number, or undefined behaviour (access out of bounds, null
pointer). -/
inductive Call
  | val (v : ℝ)
  | nan
  | undef

/-- The vector of pointers after the constructor (ass_leg_function.cc:6-487): `resize` creates the rows `0 … 20` with `n + 1`
null entries, then the assignments are executed in order. `none`: out of bounds; `some none`: null pointer;
`some (some f)`: the function with that name. -/
def pointer (wires : List (ℕ × ℕ × ℕ × ℕ)) (n m : ℕ) : Option (Option (ℕ × ℕ)) :=
  if n < 21 ∧ m < n + 1 then
    some (wires.foldl (fun r w => if w.1 = n ∧ w.2.1 = m then some (w.2.2.1, w.2.2.2) else r) none)
  else none

/-- The function of a given name, by degree and order. -/
def named (funs : List (List Prog)) (n m : ℕ) : Option Prog := (funs[n]?).bind (·[m]?)

/-- Call through a pointer. -/
noncomputable def callPtr (wires : List (ℕ × ℕ × ℕ × ℕ)) (funs : List (List Prog)) (n m : ℕ) (x : ℝ) : Call :=
  match pointer wires n m with
  | some (some f) => match named funs f.1 f.2 with
    | some p => match runProg p x with | some v => .val v | none => .nan
    | none => .undef
  | _ => .undef

/-- `GetAssLegFunSph` (ass_leg_function.cc:520-526). -/
noncomputable def getAssLegFunSph (n m : ℕ) (x : ℝ) : Call := callPtr Table.valWires Table.vals n m x

/-- `GetAssLegFunSphDeriv` (ass_leg_function.cc:529-535). -/
noncomputable def getAssLegFunSphDeriv (n m : ℕ) (x : ℝ) : Call := callPtr Table.derWires Table.ders n m x

/-- `AssLegFunSph` (ass_leg_function.cc:491-502): for `n = m, …, p` the entry `n - m` of the output is assigned; the list of
assignments is returned. -/
noncomputable def assLegFunSph (p m : ℕ) (x : ℝ) : List (ℕ × Call) :=
  (List.range (p + 1 - m)).map (fun i => ((m + i) - m, getAssLegFunSph (m + i) m x))

/-- `AssLegFunSphDeriv` (ass_leg_function.cc:505-517). -/
noncomputable def assLegFunSphDeriv (p m : ℕ) (x : ℝ) : List (ℕ × Call × Call) :=
  (List.range (p + 1 - m)).map (fun i =>
    ((m + i) - m, getAssLegFunSph (m + i) m x, getAssLegFunSphDeriv (m + i) m x))

end PiBem.Legendre
