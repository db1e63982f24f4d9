import Verif.Harmonic.Poly
import Verif.Legendre.Spec
import Verif.Expansion.Model
import Mathlib.Algebra.Polynomial.Taylor

/-!
# Solid harmonics and the formula of Rodrigues

Mathematics used by the proofs: `ρ^n P_n^m(cos θ) e^{i m β}` in terms of the coefficients `R n (n+m)`.
-/

noncomputable section

namespace PiBem.Harmonic

open Polynomial Complex PiBem.Legendre PiBem.Expansion

/-- Quadratic polynomial `d + b T + a T²`. -/
def quad (d b a : ℂ) : ℂ[X] := C d + C b * X + C a * X ^ 2

theorem Q_eq_quad (v : V3) : Q v = quad ((starRingEnd ℂ) (uc v) / 2) (v 2) (-(uc v / 2)) := by
  simp only [Q, quad, C_neg]; ring

/-- Substituting `s T` and multiplying by `κ`. -/
theorem quad_scale (d b a s κ : ℂ) (n k : ℕ) :
    (quad (κ * d) (κ * b * s) (κ * a * s ^ 2) ^ n).coeff k = κ ^ n * s ^ k * (quad d b a ^ n).coeff k := by
  have h : quad (κ * d) (κ * b * s) (κ * a * s ^ 2) = C κ * (quad d b a).comp (C s * X) := by
    simp only [quad, add_comp, mul_comp, C_comp, X_comp, pow_comp, C_mul, C_pow]
    ring
  rw [h, mul_pow, ← pow_comp, ← C_pow, coeff_C_mul, comp_C_mul_X_coeff]
  ring

/-- Iterated derivatives of the power in the formula of Rodrigues. -/
theorem iterate_derivative_eval (c : ℝ) (n k : ℕ) :
    (((derivative^[k] ((X ^ 2 - 1 : ℝ[X]) ^ n)).eval c : ℝ) : ℂ) =
      k.factorial * (quad (c ^ 2 - 1) (2 * c) 1 ^ n).coeff k := by
  have h1 : (derivative^[k] ((X ^ 2 - 1 : ℝ[X]) ^ n)).eval c =
      k.factorial * (taylor c ((X ^ 2 - 1 : ℝ[X]) ^ n)).coeff k := by
    rw [taylor_coeff, ← factorial_smul_hasseDeriv, LinearMap.smul_apply, eval_smul, nsmul_eq_mul]
  have h2 : taylor c ((X ^ 2 - 1 : ℝ[X]) ^ n) = (C (c ^ 2 - 1) + C (2 * c) * X + X ^ 2) ^ n := by
    rw [taylor_apply, pow_comp]
    congr 1
    simp only [sub_comp, pow_comp, X_comp, one_comp, C_sub, C_pow, C_mul, C_1]
    rw [show (C (2 : ℝ) : ℝ[X]) = 2 from rfl]
    ring
  have h3 : quad (c ^ 2 - 1) (2 * c) 1 = (C (c ^ 2 - 1) + C (2 * c) * X + X ^ 2 : ℝ[X]).map Complex.ofRealHom := by
    simp [quad]
  rw [h1, h2, h3, ← Polynomial.map_pow, coeff_map]
  simp

theorem derivative_legendreP (n m : ℕ) (c : ℝ) :
    (((derivative^[m] (legendreP n)).eval c : ℝ) : ℂ) =
      (n + m).factorial / (2 ^ n * n.factorial) * (quad (c ^ 2 - 1) (2 * c) 1 ^ n).coeff (n + m) := by
  rw [legendreP, iterate_derivative_C_mul, eval_C_mul, ← Function.iterate_add_apply, Complex.ofReal_mul, add_comm m n,
    iterate_derivative_eval]
  push_cast
  ring

theorem rho_sq (v : V3) : rho v ^ 2 = v 0 ^ 2 + v 1 ^ 2 + v 2 ^ 2 := Real.sq_sqrt (by positivity)

theorem rho_nonneg (v : V3) : 0 ≤ rho v := Real.sqrt_nonneg _

theorem rho_eq_zero {v : V3} : rho v = 0 ↔ v = 0 := by
  constructor
  · intro h
    have h2 := rho_sq v
    rw [h] at h2
    have h0 : v 0 = 0 := by nlinarith [sq_nonneg (v 0), sq_nonneg (v 1), sq_nonneg (v 2)]
    have h1 : v 1 = 0 := by nlinarith [sq_nonneg (v 0), sq_nonneg (v 1), sq_nonneg (v 2)]
    have h3 : v 2 = 0 := by nlinarith [sq_nonneg (v 0), sq_nonneg (v 1), sq_nonneg (v 2)]
    funext i; fin_cases i <;> assumption
  · rintro rfl; simp [rho]

theorem norm_uc (v : V3) : ‖uc v‖ = Real.sqrt (v 0 ^ 2 + v 1 ^ 2) := by
  rw [Complex.norm_def, Complex.normSq_apply]; congr 1; simp [uc]; ring

theorem sin_eq (v : V3) (hv : v ≠ 0) : Real.sqrt (1 - cosA v ^ 2) * rho v = ‖uc v‖ := by
  have hr : rho v ≠ 0 := fun h => hv (rho_eq_zero.mp h)
  rw [norm_uc, ← Real.sqrt_sq (rho_nonneg v), ← Real.sqrt_mul' _ (sq_nonneg _)]
  congr 1
  rw [cosA]
  field_simp
  rw [rho_sq]; ring

theorem cis_beta (v : V3) (m : ℕ) : ((‖uc v‖ : ℝ) : ℂ) ^ m * cis (m * beta v) = uc v ^ m := by
  have h : ((‖uc v‖ : ℝ) : ℂ) * cis (beta v) = uc v := by
    exact Complex.norm_mul_exp_arg_mul_I (uc v)
  conv_rhs => rw [← h, mul_pow]
  congr 1
  unfold cis
  rw [← Complex.exp_nat_mul]
  congr 1
  push_cast; ring

/-- Coefficients of `Q v ^ n` and derivatives of the Legendre polynomial. -/
theorem coeff_Q_pow (v : V3) (hv : v ≠ 0) (n m : ℕ) (hm : m ≤ n) :
    (rho v : ℂ) ^ n * ((Real.sqrt (1 - cosA v ^ 2) : ℝ) : ℂ) ^ m * (-1) ^ m * cis (m * beta v) *
      (((derivative^[m] (legendreP n)).eval (cosA v) : ℝ) : ℂ) =
      (n + m).factorial * R n (n + m) v := by
  have hr : rho v ≠ 0 := fun h => hv (rho_eq_zero.mp h)
  have hrC : (rho v : ℂ) ≠ 0 := by exact_mod_cast hr
  have hs := sin_eq v hv
  have hsC : ((Real.sqrt (1 - cosA v ^ 2) : ℝ) : ℂ) = (‖uc v‖ : ℝ) / rho v := by
    rw [eq_div_iff hrC]; exact_mod_cast hs
  have hf : (n.factorial : ℂ) ≠ 0 := by exact_mod_cast n.factorial_ne_zero
  have hc : (cosA v : ℂ) = v 2 / rho v := by simp [cosA]
  have hconj : uc v * (starRingEnd ℂ) (uc v) = rho v ^ 2 - v 2 ^ 2 := by
    rw [uc_mul_conj]
    have := rho_sq v
    rw [show v 0 ^ 2 + v 1 ^ 2 = rho v ^ 2 - v 2 ^ 2 by rw [this]; ring]
    push_cast; ring
  rw [derivative_legendreP, R, hsC]
  have key : (-uc v) ^ m * (quad ((cosA v : ℂ) ^ 2 - 1) (2 * cosA v) 1 ^ n).coeff (n + m) * rho v ^ n =
      2 ^ n * rho v ^ m * (Q v ^ n).coeff (n + m) := by
    by_cases hu : uc v = 0
    · have hz : (v 2 : ℂ) ^ 2 = rho v ^ 2 := by
        rw [hu, zero_mul] at hconj; exact (sub_eq_zero.mp hconj.symm).symm
      have hc1 : (cosA v : ℂ) ^ 2 - 1 = 0 := by rw [hc, div_pow, hz, div_self (pow_ne_zero _ hrC), sub_self]
      rw [Q_eq_quad, hu, hc1]
      have hq : quad 0 (2 * (cosA v : ℂ)) 1 = X * (C (2 * (cosA v : ℂ)) + X) := by simp only [quad, C_0, C_1]; ring
      have hq' : quad ((starRingEnd ℂ) 0 / 2) (v 2 : ℂ) (-(0 / 2)) = X * C (v 2 : ℂ) := by simp only [quad, map_zero, zero_div, neg_zero]; ring
      rw [hq, hq', mul_pow, mul_pow, add_comm n m, coeff_X_pow_mul, coeff_X_pow_mul, ← C_pow, coeff_C]
      by_cases hm0 : m = 0
      · subst hm0
        have : ((C (2 * (cosA v : ℂ)) + X) ^ n).coeff 0 = (2 * (cosA v : ℂ)) ^ n := by
          rw [coeff_zero_eq_eval_zero]; simp
        rw [this, if_pos rfl, hc]
        simp only [pow_zero, one_mul, mul_one]
        rw [← mul_pow, ← mul_pow]
        congr 1
        field_simp
      · simp [hm0]
    · have hsc := quad_scale ((starRingEnd ℂ) (uc v) / 2) (v 2) (-(uc v / 2)) (-(rho v / uc v))
        (-(2 * uc v / rho v ^ 2)) n (n + m)
      have e1 : -(2 * uc v / (rho v : ℂ) ^ 2) * ((starRingEnd ℂ) (uc v) / 2) = (cosA v : ℂ) ^ 2 - 1 := by
        rw [hc]; field_simp; linear_combination -hconj
      have e2 : -(2 * uc v / (rho v : ℂ) ^ 2) * (v 2 : ℂ) * (-(rho v / uc v)) = 2 * cosA v := by
        rw [hc]; field_simp
      have e3 : -(2 * uc v / (rho v : ℂ) ^ 2) * (-(uc v / 2)) * (-((rho v : ℂ) / uc v)) ^ 2 = 1 := by
        field_simp
      rw [e1, e2, e3] at hsc
      rw [hsc, ← Q_eq_quad, pow_add]
      have : (-uc v) ^ m * ((-(2 * uc v / (rho v : ℂ) ^ 2)) ^ n * ((-(rho v / uc v)) ^ n * (-(rho v / uc v)) ^ m) *
          (Q v ^ n).coeff (n + m)) * rho v ^ n =
        ((-uc v) * (-(rho v / uc v))) ^ m * ((-(2 * uc v / (rho v : ℂ) ^ 2)) * (-(rho v / uc v)) * rho v) ^ n *
          (Q v ^ n).coeff (n + m) := by
        simp only [mul_pow]; ring
      rw [this, show (-uc v) * (-((rho v : ℂ) / uc v)) = rho v by field_simp,
        show (-(2 * uc v / (rho v : ℂ) ^ 2)) * (-(rho v / uc v)) * rho v = 2 by field_simp]
      ring
  have h1 := cis_beta v m
  have h2 : (rho v : ℂ) ^ n * (((‖uc v‖ : ℝ) : ℂ) / rho v) ^ m * (-1) ^ m * cis (m * beta v) *
      ((n + m).factorial / (2 ^ n * n.factorial) * (quad ((cosA v : ℂ) ^ 2 - 1) (2 * cosA v) 1 ^ n).coeff (n + m)) =
      (n + m).factorial / (2 ^ n * n.factorial * rho v ^ m) *
      ((-1) ^ m * (((‖uc v‖ : ℝ) : ℂ) ^ m * cis (m * beta v)) * (quad ((cosA v : ℂ) ^ 2 - 1) (2 * cosA v) 1 ^ n).coeff (n + m) * rho v ^ n) := by
    rw [div_pow]; field_simp
  rw [h2, h1, ← neg_pow, key]
  field_simp

/-- `√((n-m)! (n+m)!)`. -/
def W (n m : ℕ) : ℝ := Real.sqrt ((n - m).factorial * (n + m).factorial)

theorem W_pos (n m : ℕ) : 0 < W n m := Real.sqrt_pos.mpr (by positivity)

theorem W_sq (n m : ℕ) : W n m ^ 2 = (n - m).factorial * (n + m).factorial := Real.sq_sqrt (by positivity)

/-- The function of direction and distance used by the code is a regular solid harmonic. -/
theorem solid (v : V3) (hv : v ≠ 0) (n m : ℕ) (hm : m ≤ n) :
    ((assLeg n m (cosA v) * rho v ^ n : ℝ) : ℂ) * cis (m * beta v) = W n m * R n (n + m) v := by
  have h := coeff_Q_pow v hv n m hm
  have hf : ((n + m).factorial : ℝ) ≠ 0 := by exact_mod_cast (n + m).factorial_ne_zero
  have hW : W n m = Real.sqrt ((n - m).factorial / (n + m).factorial) * (n + m).factorial := by
    rw [W]
    rw [show ((n - m).factorial : ℝ) * (n + m).factorial = ((n - m).factorial / (n + m).factorial) * ((n + m).factorial) ^ 2 by
      field_simp]
    rw [Real.sqrt_mul (by positivity), Real.sqrt_sq (by positivity)]
  rw [hW, assLeg]
  push_cast
  rw [mul_assoc _ _ (R n (n + m) v), ← h]
  ring

end PiBem.Harmonic
