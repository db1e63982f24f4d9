import Mathlib.Algebra.Polynomial.Derivative
import Mathlib.Algebra.Polynomial.Eval.Defs
import Mathlib.Data.Nat.Factorial.Basic
import Mathlib.Analysis.Real.Sqrt

/-!
# Associated Legendre functions: specification

The normalised associated Legendre functions of the fast multipole literature, with the Condon–Shortley sign, from the
formula of Rodrigues.
-/

namespace PiBem.Legendre

open Polynomial

/-- Legendre polynomial (formula of Rodrigues): `P_n = (1 / (2^n n!)) d^n/dx^n (x² - 1)^n`. -/
noncomputable def legendreP (n : ℕ) : ℝ[X] :=
  C (1 / (2 ^ n * (n.factorial : ℝ))) * derivative^[n] ((X ^ 2 - 1) ^ n)

/-- Normalised associated Legendre function:
`√((n-m)!/(n+m)!) (-1)^m (1 - x²)^(m/2) d^m P_n / dx^m`. -/
noncomputable def assLeg (n m : ℕ) (x : ℝ) : ℝ :=
  Real.sqrt (((n - m).factorial : ℝ) / ((n + m).factorial : ℝ)) *
    ((-1) ^ m * Real.sqrt (1 - x ^ 2) ^ m * (derivative^[m] (legendreP n)).eval x)

end PiBem.Legendre
