import Verif.Legendre.Program

/-!
# Symbolic evaluation of the programs

Every intermediate value is `√k^a s^j p(x) / (d s^e)` with `s = √(1 - x²)`, `p` a polynomial with integer coefficients.
-/

namespace PiBem.Legendre

/-- Polynomials with integer coefficients, constant term first. -/
abbrev Poly := List ℤ

/-- Sum. -/
def padd : Poly → Poly → Poly
  | [], q => q
  | p, [] => p
  | a :: p, b :: q => (a + b) :: padd p q

/-- Product by a number. -/
def pscale (c : ℤ) : Poly → Poly
  | [] => []
  | a :: p => (c * a) :: pscale c p

/-- Product by `x`. -/
def pshift : Poly → Poly
  | [] => []
  | a :: p => 0 :: a :: p

/-- Product. -/
def pmul : Poly → Poly → Poly
  | [], _ => []
  | a :: p, q => if a = 0 then pshift (pmul p q) else padd (pscale a q) (0 :: pmul p q)

/-- Derivative; `n` is the degree of the first coefficient. -/
def pderivAux : ℕ → Poly → Poly
  | _, [] => []
  | n, a :: p => ((n : ℤ) * a) :: pderivAux (n + 1) p

/-- Derivative. -/
def pderiv : Poly → Poly
  | [] => []
  | _ :: p => pderivAux 1 p

/-- `1 - x²`. -/
def pw : Poly := [1, 0, -1]

/-- Product by `(1 - x²)^n`. -/
def pmulW : ℕ → Poly → Poly
  | 0, p => p
  | n + 1, p => pmulW n (pmul pw p)

/-- All coefficients are zero. -/
def pzero : Poly → Bool
  | [] => true
  | a :: p => a == 0 && pzero p

/-- Equality of polynomials. -/
def peq : Poly → Poly → Bool
  | [], q => pzero q
  | p, [] => pzero p
  | a :: p, b :: q => a == b && peq p q

/-- Symbolic value. -/
structure NF where
  a : ℕ
  j : ℕ
  p : Poly
  d : ℤ
  e : ℕ

/-- Result of the symbolic evaluation: a value, a division by a vanishing power of `s`, or failure. -/
inductive Sym
  | ok (v : NF)
  | dz
  | fail

/-- Sum of two values with the same `d` and `e` after lowering the powers of `s`. -/
def addAligned (u v : NF) (pu pv : Poly) (ju jv : ℕ) (d : ℤ) (e : ℕ) : Sym :=
  if u.a = v.a ∧ ju % 2 = jv % 2 then
    if ju ≤ jv then .ok ⟨u.a, ju, padd pu (pmulW ((jv - ju) / 2) pv), d, e⟩
    else .ok ⟨u.a, jv, padd (pmulW ((ju - jv) / 2) pu) pv, d, e⟩
  else .fail

/-- Sum of two values. -/
def addNF (u v : NF) : Sym :=
  let e := max u.e v.e
  if u.d = v.d then addAligned u v u.p v.p (u.j + (e - u.e)) (v.j + (e - v.e)) u.d e
  else addAligned u v (pscale v.d u.p) (pscale u.d v.p) (u.j + (e - u.e)) (v.j + (e - v.e)) (u.d * v.d) e

/-- Product of two values. -/
def mulNF (u v : NF) : NF := ⟨u.a + v.a, u.j + v.j, pmul u.p v.p, u.d * v.d, u.e + v.e⟩

/-- Opposite. -/
def negNF (u : NF) : NF := ⟨u.a, u.j, pscale (-1) u.p, u.d, u.e⟩

/-- Product by a number, skipped if it is 1. -/
def dscale (d : ℤ) (p : Poly) : Poly := if d = 1 then p else pscale d p

/-- Quotient: the divisor must be a number times a power of `s`. With `closed`, the domain includes the points where
`s = 0`. -/
def divNF (closed : Bool) (u v : NF) : Sym :=
  match v.p with
  | [c] =>
    if c ≠ 0 ∧ v.a = 0 ∧ v.e = 0 then
      if v.j = 0 then .ok ⟨u.a, u.j, dscale v.d u.p, u.d * c, u.e⟩
      else if closed then .dz
      else .ok ⟨u.a, u.j, dscale v.d u.p, u.d * c, u.e + v.j⟩
    else .fail
  | _ => .fail

/-- Square root: of the constant `k`, or of `1 - x²`. -/
def sqrtNF (k : ℕ) (u : NF) : Sym :=
  if u.a = 0 ∧ u.j = 0 ∧ u.d = 1 ∧ u.e = 0 then
    if u.p = [(k : ℤ)] then .ok ⟨1, 0, [1], 1, 0⟩
    else if u.p = pw then .ok ⟨0, 1, [1], 1, 0⟩
    else .fail
  else .fail

/-- Sequencing. -/
def Sym.bind (s : Sym) (f : NF → Sym) : Sym :=
  match s with
  | .ok v => f v
  | .dz => .dz
  | .fail => .fail

/-- Symbolic evaluation of expressions. -/
def symEx (closed : Bool) (k : ℕ) (env : List (ℕ × NF)) : Ex → Sym
  | .num c => .ok ⟨0, 0, [(c : ℤ)], 1, 0⟩
  | .x => .ok ⟨0, 0, [0, 1], 1, 0⟩
  | .t i => match lookup i env with | some v => .ok v | none => .fail
  | .add a b => (symEx closed k env a).bind fun u => (symEx closed k env b).bind fun v => addNF u v
  | .sub a b => (symEx closed k env a).bind fun u => (symEx closed k env b).bind fun v => addNF u (negNF v)
  | .mul a b => (symEx closed k env a).bind fun u => (symEx closed k env b).bind fun v => .ok (mulNF u v)
  | .div a b => (symEx closed k env a).bind fun u => (symEx closed k env b).bind fun v => divNF closed u v
  | .neg a => (symEx closed k env a).bind fun u => .ok (negNF u)
  | .sqrt a => (symEx closed k env a).bind fun u => sqrtNF k u
  | .sq a => (symEx closed k env a).bind fun u => .ok (mulNF u u)

/-- Symbolic execution of the assignments and of the return. -/
def symBody (closed : Bool) (k : ℕ) (ret : Ex) : List (ℕ × Ex) → List (ℕ × NF) → Sym
  | [], env => symEx closed k env ret
  | (i, e) :: l, env => match symEx closed k env e with
    | .ok v => symBody closed k ret l ((i, v) :: env)
    | .dz => .dz
    | .fail => .fail

/-- Symbolic execution of a program. -/
def symProg (closed : Bool) (k : ℕ) (p : Prog) : Sym := symBody closed k p.ret p.body []

/-- `(x² - 1)^n`. -/
def pbase : ℕ → Poly
  | 0 => [1]
  | n + 1 => pmul [-1, 0, 1] (pbase n)

/-- `n`-th derivative. -/
def pderivN : ℕ → Poly → Poly
  | 0, p => p
  | n + 1, p => pderivN n (pderiv p)

/-- `d^(n+m)/dx^(n+m) (x² - 1)^n`. -/
def prod (n m : ℕ) : Poly := pderivN (n + m) (pbase n)

/-- Factorial, for the evaluation. -/
def fact : ℕ → ℕ
  | 0 => 1
  | n + 1 => (n + 1) * fact n

/-- Comparison of two values, cross-multiplied. -/
def nfEq (u v : NF) : Bool :=
  let ju := u.j + v.e
  let jv := v.j + u.e
  ju % 2 == jv % 2 &&
    (if ju ≤ jv then peq (pscale v.d u.p) (pmulW ((jv - ju) / 2) (pscale u.d v.p))
     else peq (pmulW ((ju - jv) / 2) (pscale v.d u.p)) (pscale u.d v.p))

/-- The normalised associated Legendre function as a symbolic value with `√((n-m)!/(n+m)!) = (r/q) / √k`:
`√k s^m (-1)^m (r / (q k)) prod / (2^n n!)`. -/
def target (n m k r q : ℕ) : NF :=
  ⟨1, m, pscale ((-1) ^ m * (r : ℤ)) (prod n m), (q : ℤ) * k * (2 ^ n * fact n), 0⟩

/-- Derivative of the symbolic value `√k s^j p / d`: `√k s^j ((1 - x²) p' - j x p) / (d s²)`. -/
def derivNF (u : NF) : NF :=
  ⟨u.a, u.j, padd (pmul pw (pderiv u.p)) (pscale (-(u.j : ℤ)) (0 :: u.p)), u.d, 2⟩

/-- Check of the certificate for the square root. -/
def checkRoot (n m k r q : ℕ) : Bool :=
  fact (n - m) * k * (q * q) == fact (n + m) * (r * r) && 0 < k && 0 < q && 0 < r

/-- Check of a program for the values. -/
def checkVal (n m k r q : ℕ) (p : Prog) : Bool :=
  checkRoot n m k r q &&
    match symProg true k p with
    | .ok u => (u.a == 1 || (u.a == 0 && k == 1)) && nfEq u (target n m k r q)
    | _ => false

/-- Check of a program for the derivatives. -/
def checkDer (n m k r q : ℕ) (p : Prog) : Bool :=
  checkRoot n m k r q &&
    match symProg false k p with
    | .ok u => (u.a == 1 || (u.a == 0 && k == 1)) && nfEq u (derivNF (target n m k r q))
    | _ => false

/-- Check of a program for the derivatives at the end points: a value, or (`m = 1`) a division by zero. -/
def checkEnd (m k : ℕ) (p : Prog) : Bool :=
  match symProg true k p with
  | .ok _ => m != 1
  | .dz => m == 1
  | .fail => false

/-- Check of the functions of one degree `n`: `certs` holds the certificates for the orders `0 … n`. -/
def checkRow (n : ℕ) : ℕ → List (ℕ × ℕ × ℕ) → List Prog → List Prog → Bool
  | m, (k, r, q) :: c, p :: ps, d :: ds =>
    checkVal n m k r q p && checkDer n m k r q d && checkEnd m k d && checkRow n (m + 1) c ps ds
  | m, [], [], [] => m == n + 1
  | _, _, _, _ => false

end PiBem.Legendre
