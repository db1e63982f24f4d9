import Verif.Expansion.Model
import Verif.Legendre.Spec
import Mathlib.Analysis.Calculus.Deriv.Basic
import Mathlib.Algebra.BigOperators.Group.List.Basic

/-!
# Specification of expansions: sources, potentials and moments

Independent of the code: what a multipole expansion is supposed to contain (moments of the sources about the centre)
and to approximate (the potential of the sources).
-/

noncomputable section

namespace PiBem.Expansion

open PiBem.Legendre

/-- A point charge `q` at `y`, or a dipole of strength `q` and direction `d` at `y`. -/
inductive Source where
  | charge (q : ℝ) (y : V3)
  | dipole (q : ℝ) (y d : V3)

/-- Position. -/
def Source.pos : Source → V3
  | .charge _ y => y
  | .dipole _ y _ => y

/-- Potential: `q / |x - y|` for a charge; for a dipole `q` times the derivative of `1 / |x - y|` with respect to the
source point in the direction `d`. -/
def Source.potential (x : V3) : Source → ℝ
  | .charge q y => q / rho (x - y)
  | .dipole q y d => q * deriv (fun t : ℝ => 1 / rho (x - (y + t • d))) 0

/-- Moment of degree `n` and order `m` about `c`: `q ρ^n P_n^m(cos θ) e^{-i m φ}` for a charge with spherical
coordinates `ρ, θ, φ` about `c` (`P` normalised); its derivative in the direction `d` for a dipole. -/
def Source.moment (c : V3) (n m : ℕ) : Source → ℂ
  | .charge q y => q * (rho (y - c) ^ n * assLeg n m (cosA (y - c)) : ℝ) * cis (-m * beta (y - c))
  | .dipole q y d => q * deriv (fun t : ℝ =>
      ((rho (y + t • d - c) ^ n * assLeg n m (cosA (y + t • d - c)) : ℝ) : ℂ) * cis (-m * beta (y + t • d - c))) 0

/-- Potential of a list of sources. -/
def potential (S : List Source) (x : V3) : ℝ := (S.map (Source.potential x)).sum

/-- Moments of a list of sources. -/
def moment (S : List Source) (c : V3) (n m : ℕ) : ℂ := (S.map (Source.moment c n m)).sum

/-- The expansion contains the moments of the sources `S` about its centre, up to its order. -/
def IsMultipole (e : Exp) (S : List Source) : Prop :=
  (∀ n m, m ≤ n → n ≤ e.p → e.coeff n m = moment S e.center n m) ∧ (e.isZero = true → ∀ n m, e.coeff n m = 0)

/-- Error bound of an expansion of order `p` for a source at distance at most `r` when the expansion is used at distance
`D > r`: geometric in `r / D`. For a charge `|q| (r/D)^(p+1) / (D - r)`, for a dipole
`|q| |d| (r/D)^p (p + 1 - p r/D) / (D - r)²`. -/
def Source.bound (p : ℕ) (D r : ℝ) : Source → ℝ
  | .charge q _ => |q| * (r / D) ^ (p + 1) / (D - r)
  | .dipole q _ d => |q| * rho d * (r / D) ^ p * (p + 1 - p * (r / D)) / (D - r) ^ 2

/-- The table of Legendre functions is right up to degree 20 (established for the code by `C44_values` and
`C44_derivatives`). -/
structure IsTable (L : Legendre) : Prop where
  fn : ∀ n m x, n ≤ 20 → m ≤ n → -1 ≤ x → x ≤ 1 → L.fn n m x = assLeg n m x
  der : ∀ n m x, n ≤ 20 → m ≤ n → -1 < x → x < 1 → HasDerivAt (assLeg n m) (L.der n m x) x

end PiBem.Expansion
