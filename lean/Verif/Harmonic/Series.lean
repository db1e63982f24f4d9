import Verif.Harmonic.Pairing
import Mathlib.Analysis.Complex.Liouville
import Mathlib.Analysis.Normed.Ring.InfiniteSum
import Mathlib.Analysis.SpecificLimits.Normed
import Mathlib.Topology.Order.IntermediateValue
import Mathlib.Analysis.Normed.Group.FunctionSeries
import Mathlib.RingTheory.PowerSeries.Derivative
import Mathlib.Analysis.Calculus.IteratedDeriv.Defs
import Mathlib.Analysis.Calculus.Deriv.Polynomial

/-!
# Bounds and generating function

Mathematics used by the proofs.
-/

noncomputable section

namespace PiBem.Harmonic

open Polynomial Complex PiBem.Legendre PiBem.Expansion

/-- Cauchy bound of the coefficients by the maximum on the unit circle. -/
theorem norm_coeff_le (P : ℂ[X]) (B : ℝ) (h : ∀ t : ℂ, ‖t‖ = 1 → ‖P.eval t‖ ≤ B) (k : ℕ) : ‖P.coeff k‖ ≤ B := by
  have h1 := Complex.norm_iteratedDeriv_le_of_forall_mem_sphere_norm_le (c := 0) (R := 1) (C := B) (f := fun t => P.eval t) k
    one_pos P.differentiable.diffContOnCl (by
      intro z hz
      exact h z (by simpa using hz))
  have h2 : ∀ (j : ℕ) (P : ℂ[X]), iteratedDeriv j (fun t => P.eval t) = fun t => (derivative^[j] P).eval t := by
    intro j
    induction j with
    | zero => intro P; simp
    | succ j ih =>
      intro P
      rw [iteratedDeriv_succ']
      have : deriv (fun t => P.eval t) = fun t => (derivative P).eval t := by
        funext t; exact P.deriv
      rw [this, ih, Function.iterate_succ_apply]
  rw [h2] at h1
  have h3 : (derivative^[k] P).eval 0 = k.factorial * P.coeff k := by
    rw [← coeff_zero_eq_eval_zero, coeff_iterate_derivative, zero_add, Nat.descFactorial_self, nsmul_eq_mul]
  simp only [h3, norm_mul, one_pow, div_one] at h1
  have hf : (0 : ℝ) < k.factorial := by exact_mod_cast k.factorial_pos
  have h4 : (k.factorial : ℝ) * ‖P.coeff k‖ ≤ k.factorial * B := by simpa using h1
  exact le_of_mul_le_mul_left h4 hf

theorem norm_Q_eval (w : V3) (t : ℂ) (ht : ‖t‖ = 1) : ‖(Q w).eval t‖ ≤ rho w := by
  have ht2 : t * (starRingEnd ℂ) t = 1 := by
    rw [Complex.mul_conj, Complex.normSq_eq_norm_sq, ht]; simp
  have e : (Q w).eval t = t * ((w 2 : ℂ) - I * ((uc w * t).im : ℝ)) := by
    have h1 : (2 : ℂ) * I * ((uc w * t).im : ℝ) = uc w * t - (starRingEnd ℂ) (uc w * t) := by
      apply Complex.ext <;> simp ; ring
    rw [map_mul] at h1
    simp only [Q, eval_add, eval_sub, eval_mul, eval_C, eval_X, eval_pow]
    linear_combination (1 / 2 * t) * h1 - (starRingEnd ℂ) (uc w) / 2 * ht2
  rw [e, norm_mul, ht, one_mul, Complex.norm_def, rho]
  apply Real.sqrt_le_sqrt
  have h2 : (uc w * t).im ^ 2 ≤ w 0 ^ 2 + w 1 ^ 2 := by
    have h3 : (uc w * t).im ^ 2 ≤ ‖uc w * t‖ ^ 2 := by
      rw [← Complex.normSq_eq_norm_sq, Complex.normSq_apply]; nlinarith [sq_nonneg (uc w * t).re]
    rw [norm_mul, ht, mul_one, norm_uc, Real.sq_sqrt (by positivity)] at h3
    exact h3
  generalize (uc w * t).im = y at h2
  rw [Complex.normSq_apply]
  simp
  nlinarith [h2]

/-- Central coefficient of `Q w ^ N`. -/
def cen (N : ℕ) (w : V3) : ℂ := (Q w ^ N).coeff N

theorem cen_zero (w : V3) : cen 0 w = 1 := by simp [cen]

theorem cen_one (w : V3) : cen 1 w = w 2 := by simp [cen, Q_coeff_one]

theorem norm_cen (N : ℕ) (w : V3) : ‖cen N w‖ ≤ rho w ^ N :=
  norm_coeff_le _ _ (fun t ht => by
    rw [eval_pow, norm_pow]; exact pow_le_pow_left₀ (norm_nonneg _) (norm_Q_eval w t ht) N) N

theorem cen_real (N : ℕ) (w : V3) : (cen N w).im = 0 := by
  have h := (sym_Q_pow w N).conj N (by omega)
  rw [show N + N = 2 * N by omega, pow_mul, show 2 * N - N = N by omega] at h
  simp only [even_two, Even.neg_pow, one_pow, one_mul] at h
  exact Complex.conj_eq_iff_im.mp h

theorem coeff_theta (P : ℂ[X]) (k : ℕ) : (X * derivative P).coeff k = k * P.coeff k := by
  cases k with
  | zero => simp
  | succ k => rw [coeff_X_mul, coeff_derivative]; push_cast; ring

/-- Three-term recurrence. -/
theorem cen_rec (N : ℕ) (w : V3) :
    ((N : ℂ) + 2) * cen (N + 2) w = (2 * N + 3) * w 2 * cen (N + 1) w - (N + 1) * (sq w : ℝ) * cen N w := by
  set q := Q w with hq
  have hs : ((sq w : ℝ) : ℂ) = (w 2) ^ 2 + uc w * (starRingEnd ℂ) (uc w) := by
    rw [uc_mul_conj, sq]; push_cast; ring
  have hd1 : derivative q = C (w 2 : ℂ) - C (uc w) * X := by
    rw [hq, Q]
    simp only [derivative_sub, derivative_add, derivative_mul, derivative_C, derivative_X, derivative_X_pow, zero_mul, mul_one,
      zero_add]
    have : (C (uc w / 2) : ℂ[X]) * (C ((2 : ℕ) : ℂ) * X ^ (2 - 1)) = C (uc w) * X := by
      rw [← mul_assoc, ← C_mul]; congr 2
      · push_cast; ring
      · simp
    rw [this]
  have hd2 : derivative (derivative q) = - C (uc w) := by
    rw [hd1]; simp
  have key : X * derivative (X * derivative (q ^ (N + 2))) - C (2 * ((N : ℂ) + 2)) * (X * derivative (q ^ (N + 2))) +
      C (((N : ℂ) + 2) ^ 2) * q ^ (N + 2) = C (((N : ℂ) + 2) ^ 2) * q ^ (N + 2)
        - C (((N : ℂ) + 2) * (2 * N + 3) * w 2) * (X * q ^ (N + 1)) + C (((N : ℂ) + 2) * (N + 1) * (sq w : ℝ)) * (X ^ 2 * q ^ N) := by
    have e1 : derivative (q ^ (N + 2)) = C ((N : ℂ) + 2) * (q ^ (N + 1) * derivative q) := by
      rw [derivative_pow, show N + 2 - 1 = N + 1 by omega]; push_cast; ring
    have e2 : derivative (q ^ (N + 1)) = C ((N : ℂ) + 1) * (q ^ N * derivative q) := by
      rw [derivative_pow, show N + 1 - 1 = N by omega]; push_cast; ring
    rw [e1]
    simp only [derivative_mul, derivative_X, derivative_C, e2, hd2, zero_mul, zero_add, one_mul]
    rw [hd1]
    have hq2 : q = C ((starRingEnd ℂ) (uc w) / 2) + C (w 2 : ℂ) * X - C (uc w / 2) * X ^ 2 := hq
    have hqn1 : q ^ (N + 1) = q ^ N * q := pow_succ _ _
    have hqn2 : q ^ (N + 2) = q ^ N * q ^ 2 := pow_add _ _ _
    have ha : (C (uc w) : ℂ[X]) = 2 * C (uc w / 2) := by
      rw [show (2 : ℂ[X]) = C 2 from rfl, ← C_mul]; congr 1; ring
    have hs' : (C ((sq w : ℝ) : ℂ) : ℂ[X]) = C (w 2 : ℂ) ^ 2 + 4 * C (uc w / 2) * C ((starRingEnd ℂ) (uc w) / 2) := by
      rw [hs, show (4 : ℂ[X]) = C 4 from rfl, ← C_mul, ← C_mul, ← C_pow, ← C_add]; congr 1; ring
    rw [hqn1, hqn2]
    generalize q ^ N = qn
    rw [hq2]
    simp only [C_mul, C_add, C_pow, map_ofNat, map_natCast, C_1, hs', ha]
    ring
  have hk := congrArg (fun P => P.coeff (N + 2)) key
  simp only [coeff_add, coeff_sub, coeff_C_mul, coeff_theta] at hk
  rw [coeff_X_mul] at hk
  rw [show N + 2 = N + 2 from rfl, coeff_X_pow_mul] at hk
  have hN : ((N : ℂ) + 2) ≠ 0 := by exact_mod_cast (by omega : N + 2 ≠ 0)
  apply mul_left_cancel₀ hN
  simp only [cen, ← hq]
  push_cast at hk
  linear_combination -hk

end PiBem.Harmonic
