import Verif.Harmonic.Rodrigues
import Mathlib.Algebra.BigOperators.Intervals
import Mathlib.Algebra.Ring.Int.Parity

/-!
# Signed orders

Mathematics used by the proofs: the extension of coefficients and harmonics to negative orders and the powers of `i`
of the translation formulas.
-/

noncomputable section

namespace PiBem.Harmonic

open Polynomial Complex PiBem.Legendre PiBem.Expansion

/-- `(-1)^k` for negative `k`, `1` otherwise. -/
def eps (k : ℤ) : ℝ := if k < 0 then (-1) ^ k.natAbs else 1

theorem eps_mul_self (k : ℤ) : eps k * eps k = 1 := by
  unfold eps; split_ifs
  · rw [← mul_pow]; simp
  · simp

theorem Qd_zero_of_pos (n : ℕ) (hn : n ≠ 0) : Qd n 0 = 0 := by
  have : Q (0 : V3) = 0 := by
    have := Q_smul 0 0
    simpa using this
  rw [Qd, this, zero_pow hn, mul_zero]

theorem R_zero_of_pos (n k : ℕ) (hn : n ≠ 0) : R n k 0 = 0 := by
  rw [← coeff_Qd, Qd_zero_of_pos n hn, coeff_zero]

theorem assLeg_zero_zero (x : ℝ) : assLeg 0 0 x = 1 := by
  simp [assLeg, legendreP]

theorem R_zero_zero (v : V3) : R 0 0 v = 1 := by simp [R]

theorem W_zero : W 0 0 = 1 := by simp [W]

/-- `solid` for every vector. -/
theorem solid' (v : V3) (n m : ℕ) (hm : m ≤ n) :
    ((assLeg n m (cosA v) * rho v ^ n : ℝ) : ℂ) * cis (m * beta v) = W n m * R n (n + m) v := by
  by_cases hv : v = 0
  · subst hv
    by_cases hn : n = 0
    · subst hn
      obtain rfl : m = 0 := by omega
      simp [assLeg_zero_zero, R_zero_zero, W_zero, cis]
    · have : rho 0 = 0 := rho_eq_zero.mpr rfl
      rw [R_zero_of_pos _ _ hn, this, zero_pow hn]; simp
  · exact solid v hv n m hm

theorem conj_cis (t : ℝ) : (starRingEnd ℂ) (cis t) = cis (-t) := by
  unfold cis
  rw [← Complex.exp_conj, map_mul, Complex.conj_ofReal, Complex.conj_I]
  congr 1; push_cast; ring

/-- Harmonics of signed order. -/
theorem solid_int (v : V3) (n : ℕ) (k : ℤ) (hk : k.natAbs ≤ n) :
    ((assLeg n k.natAbs (cosA v) * rho v ^ n : ℝ) : ℂ) * cis (k * beta v) =
      eps k * W n k.natAbs * R n (n + k).toNat v := by
  rcases lt_or_ge k 0 with h | h
  · have h1 := congrArg (starRingEnd ℂ) (solid' v n k.natAbs hk)
    rw [map_mul, map_mul, conj_cis, Complex.conj_ofReal, Complex.conj_ofReal, conj_R _ _ _ (by omega)] at h1
    have h2 : (k : ℝ) = -((k.natAbs : ℕ) : ℝ) := by
      have : (k : ℤ) = -((k.natAbs : ℕ) : ℤ) := by omega
      rw [this]; push_cast; simp
    rw [h2, neg_mul, h1, show 2 * n - (n + k.natAbs) = ((n : ℤ) + k).toNat by omega, eps, if_pos h]
    rw [show n + (n + k.natAbs) = 2 * n + k.natAbs by omega, pow_add, pow_mul]
    push_cast
    simp; ring
  · have h1 := solid' v n k.natAbs hk
    have h2 : (k : ℝ) = ((k.natAbs : ℕ) : ℝ) := by
      have : (k : ℤ) = ((k.natAbs : ℕ) : ℤ) := by omega
      rw [this]; push_cast; simp
    rw [h2, h1, eps, if_neg (by omega), show n + k.natAbs = ((n : ℤ) + k).toNat by omega]
    simp

theorem sum_Icc_shift {A : Type*} [AddCommMonoid A] (n : ℕ) (f : ℤ → A) :
    ∑ mm ∈ Finset.Icc (-(n : ℤ)) n, f mm = ∑ k ∈ Finset.range (2 * n + 1), f ((k : ℤ) - n) := by
  symm
  refine Finset.sum_bij (fun k _ => (k : ℤ) - n) ?_ ?_ ?_ ?_
  · intro a ha; simp only [Finset.mem_range, Finset.mem_Icc] at *; omega
  · intro a _ b _ h; omega
  · intro b hb
    simp only [Finset.mem_Icc] at hb
    exact ⟨(b + n).toNat, by simp only [Finset.mem_range]; omega, by omega⟩
  · intro a _; rfl

theorem iPowRe_even (k : ℤ) : iPowRe (2 * k) = (-1) ^ k.natAbs := by
  unfold iPowRe
  rw [zpow_mul, show Complex.I ^ (2 : ℤ) = ((-1 : ℝ) : ℂ) by norm_cast; simp, ← Complex.ofReal_zpow, Complex.ofReal_re]
  rcases Int.natAbs_eq k with h | h
  · conv_lhs => rw [h]
    exact zpow_natCast _ _
  · conv_lhs => rw [h]
    rw [zpow_neg, zpow_natCast]
    rcases Nat.even_or_odd k.natAbs with e | e <;> simp [e.neg_one_pow]

theorem neg_one_pow_congr {a b : ℕ} (h : (a : ℤ) % 2 = b % 2) : (-1 : ℝ) ^ a = (-1) ^ b := by
  rcases Nat.even_or_odd a with e | e
  · have e2 : Even b := by rw [Nat.even_iff] at *; omega
    rw [e.neg_one_pow, e2.neg_one_pow]
  · have e2 : Odd b := by rw [Nat.odd_iff] at *; omega
    rw [e.neg_one_pow, e2.neg_one_pow]

theorem iPow_m2m (m : ℕ) (mm : ℤ) :
    iPowRe ((m : ℤ) - mm.natAbs - ((m : ℤ) - mm).natAbs) = eps mm * eps ((m : ℤ) - mm) := by
  unfold eps
  split_ifs with h1 h2 h2
  · omega
  · rw [show ((m : ℤ) - mm.natAbs - ((m : ℤ) - mm).natAbs) = 2 * mm by omega, iPowRe_even, mul_one]
  · rw [show ((m : ℤ) - mm.natAbs - ((m : ℤ) - mm).natAbs) = 2 * (m - mm) by omega, iPowRe_even, one_mul]
  · rw [show ((m : ℤ) - mm.natAbs - ((m : ℤ) - mm).natAbs) = 2 * 0 by omega, iPowRe_even]; simp

theorem iPow_l2l (m : ℕ) (mm : ℤ) :
    iPowRe ((mm.natAbs : ℤ) - (mm - m).natAbs - m) = eps mm * eps (mm - m) := by
  unfold eps
  split_ifs with h1 h2 h2
  · rw [show ((mm.natAbs : ℤ) - (mm - m).natAbs - m) = 2 * (-m) by omega, iPowRe_even, ← pow_add]
    exact neg_one_pow_congr (by omega)
  · omega
  · rw [show ((mm.natAbs : ℤ) - (mm - m).natAbs - m) = 2 * (mm - m) by omega, iPowRe_even, one_mul]
  · rw [show ((mm.natAbs : ℤ) - (mm - m).natAbs - m) = 2 * 0 by omega, iPowRe_even]; simp

theorem iPow_m2l (m : ℕ) (mm : ℤ) :
    iPowRe ((((m : ℤ) - mm).natAbs : ℤ) - m - mm.natAbs) = (-1) ^ m * eps mm * eps (mm - m) := by
  unfold eps
  split_ifs with h1 h2 h2
  · rw [show ((((m : ℤ) - mm).natAbs : ℤ) - m - mm.natAbs) = 2 * 0 by omega, iPowRe_even, mul_assoc, ← pow_add, ← pow_add]
    exact neg_one_pow_congr (by omega)
  · omega
  · rw [show ((((m : ℤ) - mm).natAbs : ℤ) - m - mm.natAbs) = 2 * (-mm) by omega, iPowRe_even, mul_one, ← pow_add]
    exact neg_one_pow_congr (by omega)
  · rw [show ((((m : ℤ) - mm).natAbs : ℤ) - m - mm.natAbs) = 2 * (-m) by omega, iPowRe_even, mul_one, mul_one]
    exact neg_one_pow_congr (by omega)

theorem Anm_eq (n m : ℕ) : Anm n m = (-1) ^ n / W n m := by rw [Anm, W]

end PiBem.Harmonic
