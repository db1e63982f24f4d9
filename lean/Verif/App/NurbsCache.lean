import Mathlib.Data.Rat.Floor
import Mathlib.Data.Nat.Digits.Defs
import Mathlib.Logic.Function.Basic

/-!
# Cached projections on CAD surfaces

`CachedNURBSPatchManifold::pull_back` and `point_to_string` (source/cached_nurbs_patch_manifold.cc). The projection of
OpenCASCADE is an arbitrary function; coordinates are rationals (finite doubles other than `-0`).
-/

namespace PiBem.App

/-- Characters of a number printed with the format `%f`. -/
inductive Sym | minus | dot | digit (d : ℕ)
  deriving DecidableEq

/-- Decimal digits, most significant first; `0` is printed as one digit. -/
def intDigits (n : ℕ) : List ℕ := if n = 0 then [0] else (Nat.digits 10 n).reverse

/-- Exactly six decimal digits of `n < 10^6`. -/
def sixDigits (n : ℕ) : List ℕ := (List.range 6).map (fun k => n / 10 ^ (5 - k) % 10)

/-- Rounding to the nearest integer, ties to even, for non negative numbers. -/
def roundHalfEven (y : ℚ) : ℕ :=
  let f := ⌊y⌋₊
  if y - f < 1 / 2 then f else if 1 / 2 < y - f then f + 1 else if f % 2 = 0 then f else f + 1

/-- `std::to_string(double)`, that is `printf("%f")`: sign, integer part, point and six decimals of the nearest multiple
of `10^-6`. -/
def toString6 (x : ℚ) : List Sym :=
  let n := roundHalfEven (|x| * 10 ^ 6)
  (if x < 0 then [Sym.minus] else []) ++ (intDigits (n / 10 ^ 6)).map Sym.digit ++
    Sym.dot :: (sixDigits (n % 10 ^ 6)).map Sym.digit

/-- A point of the space. -/
abbrev SPoint := Fin 3 → ℚ

/-- `point_to_string` (cached_nurbs_patch_manifold.cc:16-23). -/
def pointToString (p : SPoint) : List Sym := toString6 (p 0) ++ toString6 (p 1) ++ toString6 (p 2)

/-- `pull_back` (cached_nurbs_patch_manifold.cc:134-162): `hash` is `std::hash<std::string>`, `proj` the projection,
`cache` the map `projections_cache`. The counters are not modelled. -/
def pullBack {U : Type} (hash : List Sym → ℕ) (proj : SPoint → U) (cache : ℕ → Option U) (p : SPoint) :
    (ℕ → Option U) × U :=
  match cache (hash (pointToString p)) with
  | some u => (cache, u)
  | none => (Function.update cache (hash (pointToString p)) (some (proj p)), proj p)

/-- The cache after a sequence of calls. -/
def cacheAfter {U : Type} (hash : List Sym → ℕ) (proj : SPoint → U) (l : List SPoint) : ℕ → Option U :=
  l.foldl (fun c p => (pullBack hash proj c p).1) (fun _ => none)

end PiBem.App
