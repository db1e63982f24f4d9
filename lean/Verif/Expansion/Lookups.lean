import Mathlib.Data.List.Range
import Mathlib.Data.Int.Order.Basic
import Mathlib.Tactic.Ring
import Mathlib.Tactic.Linarith

/-!
# Table lookups made by the operations on expansions

For every operation, the list of the array accesses made by its loops, in order.
-/

namespace PiBem.Expansion.Lookups

/-- An access to an array: coefficients of the expansion itself (`own`) or of the argument (`other`), the tables of
Legendre functions and derivatives, the matrix `A_n_m`, the two tables of translation coefficients. -/
inductive Access
  | own (n m : ℕ)
  | other (n m : ℕ)
  | leg (n m : ℕ)
  | legDer (n m : ℕ)
  | anm (n m : ℕ)
  | l2l (n m nn : ℕ) (mm : ℤ)
  | m2l (n m nn : ℕ) (mm : ℤ)
deriving DecidableEq

/-- Is the access inside the array, given the orders `p` of the expansion and `q` of the argument? The coefficient
arrays are triangular (C16); `leg_pointers` and `leg_der_pointers` have 21 rows, row `n` of length `n+1`
(ass_leg_function.cc:8-12 and 247-251); `A_n_m` is 21x21 (multipole_expansion.cc:9-10, local_expansion.cc:9); the
translation tables are built with order 10 (local_expansion.cc:11-16): `l2l` is a vector of 11 rows, row `n` of length
`n+1`, of maps filled for `n ≤ nn ≤ 10`, `|mm| ≤ nn` (local_expansion.h:182-206); `m2l` is the flat table of C17. -/
def Access.inside (p q : ℕ) : Access → Prop
  | .own n m => n ≤ p ∧ m ≤ n
  | .other n m => n ≤ q ∧ m ≤ n
  | .leg n m => n < 21 ∧ m < n + 1
  | .legDer n m => n < 21 ∧ m < n + 1
  | .anm n m => n < 21 ∧ m < 21
  | .l2l n m nn mm => n < 11 ∧ m < n + 1 ∧ n ≤ nn ∧ nn ≤ 10 ∧ -(nn : ℤ) ≤ mm ∧ mm ≤ nn
  | .m2l n m nn mm => n ≤ 10 ∧ m ≤ n ∧ nn ≤ 10 ∧ -(nn : ℤ) ≤ mm ∧ mm ≤ nn

/-- `for (int n = 0; n < int(p) + 1; n++) for (int m = 0; m < n + 1; m++)`. -/
def triLoop (p : ℕ) (f : ℕ → ℕ → List Access) : List Access :=
  (List.range (p + 1)).flatMap fun n => (List.range (n + 1)).flatMap fun m => f n m

/-- `for (int mm = -1 * nn; mm < nn + 1; mm++)`. -/
def symLoop (nn : ℕ) (f : ℤ → List Access) : List Access :=
  (List.range (2 * nn + 1)).flatMap fun (k : ℕ) => f ((k : ℤ) - nn)

/-- `MultipoleExpansion::Add(multipole, sol)` (multipole_expansion.cc:84-89). -/
def mScaled (p : ℕ) : List Access := triLoop p fun n m => [.other n m, .own n m]

/-- `MultipoleExpansion::Add(strength, point)` (multipole_expansion.cc:109-120). -/
def mSource (p : ℕ) : List Access := triLoop p fun n m => [.leg n m, .own n m]

/-- `MultipoleExpansion::AddNormDer` (multipole_expansion.cc:158-179). -/
def mNormDer (p : ℕ) : List Access := triLoop p fun n m => [.leg n m, .legDer n m, .own n m]

/-- `MultipoleExpansion::Add(other)`, translation (multipole_expansion.cc:209-248). -/
def mChild (p : ℕ) : List Access := triLoop p fun n m =>
  ((List.range (n + 1)).flatMap fun nn => symLoop nn fun mm =>
    if ((m : ℤ) - mm).natAbs > n - nn then []
    else [.other (n - nn) ((m : ℤ) - mm).natAbs, .leg nn mm.natAbs, .anm nn mm.natAbs,
      .anm (n - nn) ((m : ℤ) - mm).natAbs, .anm n m]) ++ [.own n m]

/-- `MultipoleExpansion::Evaluate` (multipole_expansion.cc:281-295). -/
def mEvaluate (p : ℕ) : List Access := triLoop p fun n m => [.leg n m, .own n m]

/-- `LocalExpansion::Add(other)`, translation (local_expansion.cc:128-162). -/
def lParent (p : ℕ) : List Access := triLoop p fun n m =>
  ((List.range (p + 1 - n)).flatMap fun k => symLoop (n + k) fun mm =>
    if (mm - m).natAbs > k then []
    else [.other (n + k) mm.natAbs, .leg k (mm - m).natAbs, .l2l n m (n + k) mm]) ++ [.own n m]

/-- `LocalExpansion::Add(multipole)` (local_expansion.cc:203-244). -/
def lMultipole (p : ℕ) : List Access := triLoop p fun n m =>
  ((List.range (p + 1)).flatMap fun nn => symLoop nn fun mm =>
    [.other nn mm.natAbs, .leg (nn + n) (mm - m).natAbs, .m2l n m nn mm]) ++ [.own n m]

/-- `LocalExpansion::Evaluate` (local_expansion.cc:267-283). -/
def lEvaluate (p : ℕ) : List Access := triLoop p fun n m => [.leg n m, .own n m]

/-- Accesses to `A_n_m` made when building the multipole-to-local table (local_expansion.h:146-163). -/
def m2lBuild (p : ℕ) : List Access := triLoop p fun n m =>
  (List.range (p + 1)).flatMap fun nn => symLoop nn fun mm =>
    [.anm nn mm.natAbs, .anm (n + nn) ((m : ℤ) - mm).natAbs, .anm n m]

/-- Accesses to `A_n_m` made when building the local-to-local table (local_expansion.h:183-206). -/
def l2lBuild (p : ℕ) : List Access := triLoop p fun n m =>
  (List.range (p + 1 - n)).flatMap fun k => symLoop (n + k) fun mm =>
    [.anm k (mm - m).natAbs, .anm (n + k) mm.natAbs, .anm n m]

theorem mem_triLoop {p : ℕ} {f : ℕ → ℕ → List Access} {a : Access} :
    a ∈ triLoop p f ↔ ∃ n m, n ≤ p ∧ m ≤ n ∧ a ∈ f n m := by
  simp only [triLoop, List.mem_flatMap, List.mem_range]
  constructor
  · rintro ⟨n, hn, m, hm, h⟩; exact ⟨n, m, by omega, by omega, h⟩
  · rintro ⟨n, m, hn, hm, h⟩; exact ⟨n, by omega, m, by omega, h⟩

theorem mem_symLoop {nn : ℕ} {f : ℤ → List Access} {a : Access} :
    a ∈ symLoop nn f ↔ ∃ mm : ℤ, -(nn : ℤ) ≤ mm ∧ mm ≤ nn ∧ a ∈ f mm := by
  simp only [symLoop, List.mem_flatMap, List.mem_range]
  constructor
  · rintro ⟨k, hk, h⟩; exact ⟨(k : ℤ) - nn, by omega, by omega, h⟩
  · rintro ⟨mm, h1, h2, h⟩
    refine ⟨(mm + nn).toNat, by omega, ?_⟩
    rw [Int.toNat_of_nonneg (by omega), add_sub_cancel_right]
    exact h

end PiBem.Expansion.Lookups
