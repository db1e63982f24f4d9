import Mathlib.Algebra.Polynomial.Reverse
import Mathlib.Algebra.Polynomial.Derivative
import Mathlib.Algebra.Polynomial.Eval.Degree
import Mathlib.Analysis.Complex.Basic
import Mathlib.Data.Nat.Choose.Sum
import Mathlib.Data.Nat.Choose.Cast
import Mathlib.Tactic.LinearCombination
import Mathlib.Tactic.ComputeDegree

/-!
# Solid harmonics as coefficients of powers of a quadratic polynomial

`Q v = (x - i y)/2 + z T - (x + i y)/2 T²` for `v = (x, y, z)`; the regular solid harmonic of degree `n` and order
`m` is the coefficient of `T^(n+m)` in `Q v ^ n / n!`. This file is mathematics used by the proofs, not a model.
-/

noncomputable section

namespace PiBem.Harmonic

open Polynomial Complex

abbrev V3 := Fin 3 → ℝ

/-- `x + i y`. -/
def uc (v : V3) : ℂ := ⟨v 0, v 1⟩

/-- The generating polynomial. -/
def Q (v : V3) : ℂ[X] := C ((starRingEnd ℂ) (uc v) / 2) + C (v 2 : ℂ) * X - C (uc v / 2) * X ^ 2

/-- Square of the length. -/
def sq (v : V3) : ℝ := v 0 ^ 2 + v 1 ^ 2 + v 2 ^ 2

theorem uc_add (v w : V3) : uc (v + w) = uc v + uc w := by
  apply Complex.ext <;> simp [uc]

theorem uc_smul (c : ℝ) (v : V3) : uc (c • v) = c * uc v := by
  apply Complex.ext <;> simp [uc]

theorem uc_mul_conj (v : V3) : uc v * (starRingEnd ℂ) (uc v) = ((v 0 ^ 2 + v 1 ^ 2 : ℝ) : ℂ) := by
  rw [Complex.mul_conj]; congr 1; simp [Complex.normSq, uc]; ring

theorem Q_add (v w : V3) : Q (v + w) = Q v + Q w := by
  simp only [Q, uc_add, map_add, add_div, Pi.add_apply, Complex.ofReal_add]
  ring

theorem Q_smul (c : ℝ) (v : V3) : Q (c • v) = C (c : ℂ) * Q v := by
  simp only [Q, uc_smul, map_mul, mul_div_assoc, Pi.smul_apply, smul_eq_mul, Complex.ofReal_mul, Complex.conj_ofReal]
  ring

theorem Q_neg (v : V3) : Q (-v) = - Q v := by
  have := Q_smul (-1) v
  simpa using this

theorem natDegree_Q (v : V3) : (Q v).natDegree ≤ 2 := by
  unfold Q; compute_degree

theorem natDegree_Q_pow (v : V3) (n : ℕ) : (Q v ^ n).natDegree ≤ 2 * n :=
  (natDegree_pow_le_of_le n (natDegree_Q v)).trans (by omega)

theorem Q_coeff_zero (v : V3) : (Q v).coeff 0 = (starRingEnd ℂ) (uc v) / 2 := by simp [Q]
theorem Q_coeff_one (v : V3) : (Q v).coeff 1 = v 2 := by simp [Q, coeff_C]
theorem Q_coeff_two (v : V3) : (Q v).coeff 2 = - (uc v / 2) := by simp [Q]
theorem Q_coeff_large (v : V3) (k : ℕ) : (Q v).coeff (k + 3) = 0 :=
  coeff_eq_zero_of_natDegree_lt ((natDegree_Q v).trans_lt (by omega))

/-- Conjugation is the substitution `T ↦ -1/T`. -/
theorem map_conj_Q (v : V3) : (Q v).map (starRingEnd ℂ) = -((reflect 2 (Q v)).comp (C (-1) * X)) := by
  ext k
  rw [coeff_map, coeff_neg, comp_C_mul_X_coeff, coeff_reflect]
  rcases k with _ | _ | _ | k
  · rw [revAt_le (by omega), Q_coeff_zero]; simp [Q_coeff_two, map_ofNat]
  · rw [revAt_le (by omega), Q_coeff_one]; simp
  · rw [revAt_le (by omega), Q_coeff_two]; simp [Q_coeff_zero, map_ofNat]
  · rw [revAt_eq_self_of_lt (by omega), Q_coeff_large]; simp

theorem reflect_pow (p : ℂ[X]) (d n : ℕ) (h : p.natDegree ≤ d) : reflect (d * n) (p ^ n) = (reflect d p) ^ n := by
  induction n with
  | zero => simp
  | succ n ih =>
    rw [pow_succ, pow_succ, mul_add, mul_one, reflect_mul _ _ ((natDegree_pow_le_of_le n h).trans (by rw [mul_comm])) h, ih]

/-- Coefficients of opposite orders are conjugate up to sign. -/
theorem conj_coeff (v : V3) (n k : ℕ) (hk : k ≤ 2 * n) :
    (starRingEnd ℂ) ((Q v ^ n).coeff k) = (-1) ^ (n + k) * (Q v ^ n).coeff (2 * n - k) := by
  rw [← coeff_map, Polynomial.map_pow, map_conj_Q, neg_pow, ← pow_comp, ← reflect_pow _ _ _ (natDegree_Q v)]
  rw [show ((-1 : ℂ[X]) ^ n) = C ((-1) ^ n) by simp, coeff_C_mul, comp_C_mul_X_coeff, coeff_reflect, revAt_le hk]
  ring

/-- Regular solid harmonic of degree `n`; `k` is `n` plus the order. -/
def R (n k : ℕ) (v : V3) : ℂ := (Q v ^ n).coeff k / n.factorial

theorem R_eq_zero (n k : ℕ) (v : V3) (h : 2 * n < k) : R n k v = 0 := by
  rw [R, coeff_eq_zero_of_natDegree_lt ((natDegree_Q_pow v n).trans_lt h), zero_div]

theorem conj_R (n k : ℕ) (v : V3) (hk : k ≤ 2 * n) :
    (starRingEnd ℂ) (R n k v) = (-1) ^ (n + k) * R n (2 * n - k) v := by
  rw [R, map_div₀, conj_coeff v n k hk, R]
  simp [mul_div_assoc]

theorem R_neg (n k : ℕ) (v : V3) : R n k (-v) = (-1) ^ n * R n k v := by
  rw [R, Q_neg, neg_pow, show ((-1 : ℂ[X]) ^ n) = C ((-1) ^ n) by simp, coeff_C_mul, R, mul_div_assoc]

/-- `Q^n / n!` -/
def Qd (n : ℕ) (v : V3) : ℂ[X] := C (1 / (n.factorial : ℂ)) * Q v ^ n

theorem coeff_Qd (n k : ℕ) (v : V3) : (Qd n v).coeff k = R n k v := by
  rw [Qd, coeff_C_mul, R]; ring

theorem Qd_add (n : ℕ) (v w : V3) : Qd n (v + w) = ∑ j ∈ Finset.range (n + 1), Qd j v * Qd (n - j) w := by
  rw [Qd, Q_add, add_pow, Finset.mul_sum]
  refine Finset.sum_congr rfl fun j hj => ?_
  have hj : j ≤ n := by simpa [Nat.lt_succ_iff] using hj
  rw [Qd, Qd]
  have h : (n.choose j : ℂ[X]) = C ((n.choose j : ℕ) : ℂ) := by simp
  have h2 : ((n.choose j : ℕ) : ℂ) = n.factorial / (j.factorial * (n - j).factorial) := by
    rw [Nat.cast_choose ℂ hj]
  have h3 : (n.factorial : ℂ) ≠ 0 := by exact_mod_cast n.factorial_ne_zero
  rw [h, h2]
  have : C (1 / (n.factorial : ℂ)) * (Q v ^ j * Q w ^ (n - j) * C (n.factorial / (j.factorial * (n - j).factorial) : ℂ))
     = C ((1 / (n.factorial : ℂ)) * (n.factorial / (j.factorial * (n - j).factorial) : ℂ)) * (Q v ^ j * Q w ^ (n - j)) := by
    rw [C_mul]; ring
  rw [this, show (1 / (n.factorial : ℂ)) * (n.factorial / (j.factorial * (n - j).factorial) : ℂ)
     = (1 / (j.factorial : ℂ)) * (1 / ((n - j).factorial : ℂ)) by field_simp, C_mul]
  ring

/-- Addition theorem of the regular solid harmonics. -/
theorem R_add (n k : ℕ) (v w : V3) : R n k (v + w) =
    ∑ j ∈ Finset.range (n + 1), ∑ i ∈ Finset.range (k + 1), R j i v * R (n - j) (k - i) w := by
  rw [← coeff_Qd, Qd_add, finsetSum_coeff]
  refine Finset.sum_congr rfl fun j _ => ?_
  rw [coeff_mul, Finset.Nat.sum_antidiagonal_eq_sum_range_succ_mk]
  simp [coeff_Qd]

end PiBem.Harmonic
