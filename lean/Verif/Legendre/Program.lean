import Mathlib.Analysis.Real.Sqrt

/-!
# The functions of `AssLegFunction` as programs

The bodies of the functions `P_n_m` and `P_n_m_Deriv` (source/ass_leg_function.cc:539-14587) are straight-line programs:
assignments to temporaries followed by a return. They are represented as data; the tables are in `Verif.Legendre.Table`.
Arithmetic is exact, on real numbers; literals have their exact decimal value, an integer in all cases.
-/

namespace PiBem.Legendre

/-- Expressions: integer literals, the argument, temporaries, arithmetic, `sqrt`, and `pow(·, 2)` (the only use of `pow`). -/
inductive Ex
  | num (k : ℕ)
  | x
  | t (i : ℕ)
  | add (a b : Ex)
  | sub (a b : Ex)
  | mul (a b : Ex)
  | div (a b : Ex)
  | neg (a : Ex)
  | sqrt (a : Ex)
  | sq (a : Ex)

/-- A function body: assignments to temporaries in order, and the returned expression. -/
structure Prog where
  body : List (ℕ × Ex)
  ret : Ex

/-- Values of the temporaries; the last assignment comes first in the list. -/
abbrev Env := List (ℕ × ℝ)

/-- Value of a temporary, `none` if not assigned. -/
def lookup {V : Type} (i : ℕ) : List (ℕ × V) → Option V
  | [] => none
  | (j, v) :: l => if i = j then some v else lookup i l

open Classical in
/-- Value of an expression. `none` stands for a result that is not a number: a temporary not initialised, a division by
zero, the square root of a negative number. -/
noncomputable def evalEx (x : ℝ) (env : Env) : Ex → Option ℝ
  | .num k => some (k : ℝ)
  | .x => some x
  | .t i => lookup i env
  | .add a b => match evalEx x env a, evalEx x env b with | some u, some v => some (u + v) | _, _ => none
  | .sub a b => match evalEx x env a, evalEx x env b with | some u, some v => some (u - v) | _, _ => none
  | .mul a b => match evalEx x env a, evalEx x env b with | some u, some v => some (u * v) | _, _ => none
  | .div a b => match evalEx x env a, evalEx x env b with
    | some u, some v => if v = 0 then none else some (u / v)
    | _, _ => none
  | .neg a => match evalEx x env a with | some u => some (-u) | none => none
  | .sqrt a => match evalEx x env a with | some u => if u < 0 then none else some (Real.sqrt u) | none => none
  | .sq a => match evalEx x env a with | some u => some (u ^ 2) | none => none

/-- Execution of the assignments. -/
noncomputable def runBody (x : ℝ) : List (ℕ × Ex) → Env → Option Env
  | [], env => some env
  | (i, e) :: l, env => match evalEx x env e with
    | some v => runBody x l ((i, v) :: env)
    | none => none

/-- Value returned by a function for the argument `x`. -/
noncomputable def runProg (p : Prog) (x : ℝ) : Option ℝ :=
  match runBody x p.body [] with
  | some env => evalEx x env p.ret
  | none => none

end PiBem.Legendre
