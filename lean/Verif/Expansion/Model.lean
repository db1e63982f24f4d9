import Mathlib.Analysis.SpecialFunctions.Complex.Arg
import Mathlib.Analysis.SpecialFunctions.Trigonometric.Basic
import Mathlib.Analysis.SpecialFunctions.Sqrt
import Mathlib.Order.Interval.Finset.Nat
import Mathlib.Data.Int.Interval

/-!
# Multipole and local expansions

Exact model (real and complex numbers instead of `double`) of `MultipoleExpansion` and `LocalExpansion`.
Coefficients are a function of `(n,m)`: that the flat array implements it is `C16_read_write`. `pow(rho, double(k))`
is the integer power, `atan2(y,x)` is `Complex.arg (x + i y)`, `exp`, `cos`, `sin`, `sqrt` are the exact functions.
Division by zero gives `0` in Lean and NaN in the program: theorems that need it assume non-zero denominators.
The table of associated Legendre functions is a parameter (`Legendre`); `Verif.Legendre` has the actual one.
-/

noncomputable section

namespace PiBem.Expansion

open Complex

/-- Points of space (`dealii::Point<3>`, `Tensor<1,3>`). -/
abbrev V3 := Fin 3 → ℝ

/-- The functions tabulated by `AssLegFunction`: `GetAssLegFunSph` and `GetAssLegFunSphDeriv`
(ass_leg_function.cc:521-536). -/
structure Legendre where
  fn : ℕ → ℕ → ℝ → ℝ
  der : ℕ → ℕ → ℝ → ℝ

/-- `sqrt(v.square())` (multipole_expansion.cc:105). -/
def rho (v : V3) : ℝ := Real.sqrt (v 0 ^ 2 + v 1 ^ 2 + v 2 ^ 2)

/-- `v(2) / rho` (multipole_expansion.cc:106). -/
def cosA (v : V3) : ℝ := v 2 / rho v

/-- `atan2(v(1), v(0))` (multipole_expansion.cc:107). -/
def beta (v : V3) : ℝ := Complex.arg ⟨v 0, v 1⟩

/-- Scalar product of `dealii::Tensor<1,3>`. -/
def dot (v w : V3) : ℝ := v 0 * w 0 + v 1 * w 1 + v 2 * w 2

/-- `A_n_m(n,m) = pow(-1., double(n)) / sqrt((n-m)! (n+m)!)` (multipole_expansion.h:117-143,
local_expansion.h:110-135). -/
def Anm (n m : ℕ) : ℝ := (-1) ^ n / Real.sqrt (((n - m).factorial : ℝ) * ((n + m).factorial : ℝ))

/-- `GSL_SIGN` (multipole_expansion.cc:7, local_expansion.cc:7). -/
def gslSign (z : ℤ) : ℝ := if z < 0 then -1 else if z > 0 then 1 else 0

/-- `pow(imUnit, double(k)).real()` (multipole_expansion.cc:237-239, local_expansion.h:156-158). -/
def iPowRe (k : ℤ) : ℝ := (Complex.I ^ k).re

/-- `exp(std::complex<double>(0., t))`. -/
def cis (t : ℝ) : ℂ := Complex.exp (t * Complex.I)

/-- State of a `MultipoleExpansion` or of a `LocalExpansion` (multipole_expansion.h:30-43,
local_expansion.h:27-38). -/
structure Exp where
  p : ℕ
  center : V3
  coeff : ℕ → ℕ → ℂ
  isZero : Bool

/-- Constructors `MultipoleExpansion(order, center, ...)` (multipole_expansion.cc:23-35) and
`LocalExpansion(order, center, ...)` (local_expansion.cc:29-42). -/
def Exp.new (p : ℕ) (c : V3) : Exp := ⟨p, c, fun _ _ => 0, true⟩

/-- `AddToCoeff` for all `(n,m)`, `0 ≤ m ≤ n ≤ p`: the loop body common to all the `Add` methods
(e.g. multipole_expansion.cc:84-89). Coefficients are updated independently, so the order is irrelevant. -/
def Exp.addCoeffs (e : Exp) (z : ℕ → ℕ → ℂ) : Exp :=
  { e with coeff := fun n m => if n ≤ e.p ∧ m ≤ n then e.coeff n m + z n m else e.coeff n m }

/-! ## Multipole expansions -/

/-- Coefficient added by a point source (multipole_expansion.cc:104-118); `v` is the position relative
to the centre. -/
def sourceCoeff (L : Legendre) (s : ℝ) (v : V3) (n m : ℕ) : ℂ :=
  cis (-m * beta v) * ((L.fn n m (cosA v) * rho v ^ n * s : ℝ) : ℂ)

/-- `MultipoleExpansion::Add(multipole, sol)` (multipole_expansion.cc:74-91). -/
def mAddScaled (e o : Exp) (sol : ℝ) : Exp :=
  if o.isZero = true ∨ sol = 0 then e
  else { e.addCoeffs (fun n m => o.coeff n m * sol) with isZero := false }

/-- `MultipoleExpansion::Add(strength, point)` (multipole_expansion.cc:93-122). -/
def mAddSource (L : Legendre) (e : Exp) (s : ℝ) (x : V3) : Exp :=
  if s = 0 then e else { e.addCoeffs (sourceCoeff L s (x - e.center)) with isZero := false }

/-- Coefficient added by `AddNormDer` (multipole_expansion.cc:137-175). -/
def normDerCoeff (L : Legendre) (s : ℝ) (v normal : V3) (n m : ℕ) : ℂ :=
  let nrm := Real.sqrt (normal 0 ^ 2 + normal 1 ^ 2 + normal 2 ^ 2)
  let versor : V3 := fun k => normal k / nrm
  let r := rho v
  let dRho := dot (fun k => v k / r) versor
  let b := beta v
  let dBeta := dot (fun k => (![-v 1, v 0, 0] : V3) k / (v 0 ^ 2 + v 1 ^ 2)) versor
  let ca := cosA v
  let dAlpha := dot (fun k => (![ca * Real.cos b, ca * Real.sin b, -Real.sqrt (1 - ca ^ 2)] : V3) k / r) versor
  let P := L.fn n m ca
  let dPs := L.der n m ca * Real.sqrt (1 - ca ^ 2)
  cis (-m * b) *
    (⟨n * r ^ ((n : ℤ) - 1) * P * dRho - r ^ n * dPs * dAlpha, -m * r ^ n * P * dBeta⟩ : ℂ) * (s : ℂ)

/-- `MultipoleExpansion::AddNormDer` (multipole_expansion.cc:124-181). -/
def mAddNormDer (L : Legendre) (e : Exp) (s : ℝ) (x normal : V3) : Exp :=
  if s = 0 then e else { e.addCoeffs (normDerCoeff L s (x - e.center) normal) with isZero := false }

/-- Coefficient `±` extended to negative orders as the code does: real part, and imaginary part times the
sign of the order (multipole_expansion.cc:223-228, local_expansion.cc:143-146). -/
def signedCoeff (c : ℕ → ℕ → ℂ) (n : ℕ) (k : ℤ) : ℂ := ⟨(c n k.natAbs).re, gslSign k * (c n k.natAbs).im⟩

/-- Coefficient `z` of the translation of a multipole expansion (multipole_expansion.cc:209-245); `v` is the
position of the old centre relative to the new one. -/
def m2mCoeff (L : Legendre) (c : ℕ → ℕ → ℂ) (v : V3) (n m : ℕ) : ℂ :=
  ∑ nn ∈ Finset.range (n + 1), ∑ mm ∈ Finset.Icc (-(nn : ℤ)) nn,
    if ((m : ℤ) - mm).natAbs > n - nn then 0
    else
      let realFact := L.fn nn mm.natAbs (cosA v) * rho v ^ nn * Anm nn mm.natAbs *
          Anm (n - nn) ((m : ℤ) - mm).natAbs / Anm n m *
          iPowRe ((m : ℤ) - mm.natAbs - ((m : ℤ) - mm).natAbs)
      (realFact : ℂ) * (signedCoeff c (n - nn) ((m : ℤ) - mm) * cis (-mm * beta v))

/-- `MultipoleExpansion::Add(other)` (multipole_expansion.cc:184-261). -/
def mAddChild (L : Legendre) (e o : Exp) : Exp :=
  if o.isZero = true then { e with isZero := e.isZero && o.isZero }
  else if 1e-7 < rho (o.center - e.center) then
    { e.addCoeffs (m2mCoeff L o.coeff (o.center - e.center)) with isZero := false }
  else { e.addCoeffs o.coeff with isZero := false }

/-- The sum computed by `MultipoleExpansion::Evaluate` for a non-zero expansion (multipole_expansion.cc:274-296). -/
def mEvalFull (L : Legendre) (e : Exp) (x : V3) : ℝ :=
  let v := x - e.center
  (∑ n ∈ Finset.range (e.p + 1),
    (e.coeff n 0 * ((L.fn n 0 (cosA v) * rho v ^ (-(n : ℤ) - 1) : ℝ) : ℂ) +
      ∑ m ∈ Finset.Icc 1 n,
        e.coeff n m * cis (m * beta v) * 2 * ((L.fn n m (cosA v) * rho v ^ (-(n : ℤ) - 1) : ℝ) : ℂ))).re

/-- `MultipoleExpansion::Evaluate` (multipole_expansion.cc:264-298). -/
def mEval (L : Legendre) (e : Exp) (x : V3) : ℝ := if e.isZero = true then 0 else mEvalFull L e x

/-! ## Local expansions -/

/-- Entry `[n][m][nn][mm]` of `lExp_to_lExp_Coeff` (local_expansion.h:178-212). -/
def l2lTable (n m nn : ℕ) (mm : ℤ) : ℝ :=
  Anm (nn - n) (mm - m).natAbs / Anm nn mm.natAbs * Anm n m *
    (iPowRe ((mm.natAbs : ℤ) - (mm - m).natAbs - m) * (-1) ^ (nn + n))

/-- Coefficient `z` of the translation of a local expansion of order `p` (local_expansion.cc:128-158). -/
def l2lCoeff (L : Legendre) (p : ℕ) (c : ℕ → ℕ → ℂ) (v : V3) (n m : ℕ) : ℂ :=
  ∑ nn ∈ Finset.Icc n p, ∑ mm ∈ Finset.Icc (-(nn : ℤ)) nn,
    if (mm - m).natAbs > nn - n then 0
    else
      let realFact := L.fn (nn - n) (mm - m).natAbs (cosA v) * rho v ^ (nn - n) * l2lTable n m nn mm
      signedCoeff c nn mm *
        (⟨Real.cos ((mm - m) * beta v), Real.sin ((mm - m) * beta v)⟩ : ℂ) * (realFact : ℂ)

/-- `LocalExpansion::Add(other)` (local_expansion.cc:107-176). -/
def lAddParent (L : Legendre) (e o : Exp) : Exp :=
  if o.isZero = true then e
  else if 1e-7 < rho (o.center - e.center) then
    { e.addCoeffs (l2lCoeff L e.p o.coeff (o.center - e.center)) with isZero := false }
  else { e.addCoeffs o.coeff with isZero := false }

/-- Entry `(n,m,nn,mm)` of `mExp_to_lExp_Coeff` (local_expansion.h:137-175). -/
def m2lTable (n m nn : ℕ) (mm : ℤ) : ℝ :=
  Anm nn mm.natAbs / Anm (n + nn) ((m : ℤ) - mm).natAbs * Anm n m *
    (iPowRe ((((m : ℤ) - mm).natAbs : ℤ) - m - mm.natAbs) / (-1) ^ nn)

/-- Conjugate extension of the multipole coefficients (local_expansion.cc:213-214 for `mm < 0`, 228 otherwise). -/
def conjCoeff (c : ℕ → ℕ → ℂ) (nn : ℕ) (mm : ℤ) : ℂ :=
  if mm < 0 then ⟨(c nn mm.natAbs).re, -(c nn mm.natAbs).im⟩ else c nn mm.natAbs

/-- Coefficient `z` of the conversion of a multipole expansion into a local one (local_expansion.cc:203-240);
`v` is the centre of the multipole relative to the centre of the local expansion. The two loops over `mm`
are one sum. -/
def m2lCoeff (L : Legendre) (p : ℕ) (c : ℕ → ℕ → ℂ) (v : V3) (n m : ℕ) : ℂ :=
  ∑ nn ∈ Finset.range (p + 1), ∑ mm ∈ Finset.Icc (-(nn : ℤ)) nn,
    let realFact := L.fn (nn + n) (mm - m).natAbs (cosA v) * rho v ^ (-(n : ℤ) - nn - 1) * m2lTable n m nn mm
    conjCoeff c nn mm *
      (⟨Real.cos ((mm - m) * beta v), Real.sin ((mm - m) * beta v)⟩ : ℂ) * (realFact : ℂ)

/-- `LocalExpansion::Add(multipole)` (local_expansion.cc:179-248). -/
def lAddMultipole (L : Legendre) (e o : Exp) : Exp :=
  if o.isZero = true then e
  else { e.addCoeffs (m2lCoeff L e.p o.coeff (o.center - e.center)) with isZero := false }

/-- The sum computed by `LocalExpansion::Evaluate` for a non-zero expansion (local_expansion.cc:260-284). -/
def lEvalFull (L : Legendre) (e : Exp) (x : V3) : ℝ :=
  let v := x - e.center
  (∑ n ∈ Finset.range (e.p + 1),
    (e.coeff n 0 * ((L.fn n 0 (cosA v) * rho v ^ n : ℝ) : ℂ) +
      ∑ m ∈ Finset.Icc 1 n,
        e.coeff n m * ((⟨Real.cos (m * beta v), Real.sin (m * beta v)⟩ : ℂ) * 2 *
          ((L.fn n m (cosA v) * rho v ^ n : ℝ) : ℂ)))).re

/-- `LocalExpansion::Evaluate` (local_expansion.cc:251-287). -/
def lEval (L : Legendre) (e : Exp) (x : V3) : ℝ := if e.isZero = true then 0 else lEvalFull L e x

end PiBem.Expansion
