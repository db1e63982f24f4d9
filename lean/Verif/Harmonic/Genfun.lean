import Verif.Harmonic.Series

/-!
# The generating function of the central coefficients

Mathematics used by the proofs: `∑ a_N h^N = 1 / √(1 - 2 z h + s h²)`.
-/

noncomputable section

namespace PiBem.Harmonic

section Formal
open PowerSeries

/-- Formal generating function: `G² (1 - 2 z X + s X²) = 1`. -/
theorem formal (a : ℕ → ℝ) (z s : ℝ) (h0 : a 0 = 1) (h1 : a 1 = z)
    (hrec : ∀ N : ℕ, ((N : ℝ) + 2) * a (N + 2) = (2 * N + 3) * z * a (N + 1) - (N + 1) * s * a N) :
    (mk a) ^ 2 * (1 - C (2 * z) * X + C s * X ^ 2) = 1 := by
  set G := mk a with hG
  set p : PowerSeries ℝ := 1 - C (2 * z) * X + C s * X ^ 2 with hp
  have hGc : ∀ n, coeff n G = a n := fun n => coeff_mk n a
  have hode : p * d⁄dX ℝ G = (C z - C s * X) * G := by
    have e1 : p * d⁄dX ℝ G = d⁄dX ℝ G - C (2 * z) * (X * d⁄dX ℝ G) + C s * (X * (X * d⁄dX ℝ G)) := by
      rw [hp]; ring
    have e2 : (C z - C s * X) * G = C z * G - C s * (X * G) := by ring
    rw [e1, e2]
    ext n
    simp only [map_add, map_sub, coeff_C_mul, coeff_derivative, hGc]
    rcases n with _ | _ | n
    · simp [h0, h1]
    · have := hrec 0
      simp only [zero_add, coeff_succ_X_mul, coeff_zero_X_mul, coeff_derivative, hGc]
      norm_num at this ⊢
      linarith [this, h1]
    · have := hrec (n + 1)
      simp only [coeff_succ_X_mul, coeff_derivative, hGc]
      push_cast at this ⊢
      linarith [this]
  have hder : d⁄dX ℝ (G ^ 2 * p) = 0 := by
    have hdp : d⁄dX ℝ p = - C (2 * z) + C (2 * s) * X := by
      rw [hp]
      simp only [map_add, map_sub, Derivation.leibniz, derivative_one, derivative_C, derivative_X, derivative_pow, smul_eq_mul]
      simp only [map_mul, map_ofNat]
      push_cast
      ring
    rw [Derivation.leibniz, derivative_pow, hdp]
    simp only [smul_eq_mul, map_mul, map_ofNat]
    push_cast
    linear_combination (2 * G) * hode
  refine derivative.ext (by rw [hder, derivative_one]) ?_
  rw [map_mul, map_pow, ← coeff_zero_eq_constantCoeff_apply, hGc, h0, hp]
  simp

end Formal

/-- Convergent generating function. -/
theorem genfun (a : ℕ → ℝ) (z s r h : ℝ) (h0 : a 0 = 1) (h1 : a 1 = z)
    (hrec : ∀ N : ℕ, ((N : ℝ) + 2) * a (N + 2) = (2 * N + 3) * z * a (N + 1) - (N + 1) * s * a N)
    (hr : 0 ≤ r) (hb : ∀ N, |a N| ≤ r ^ N) (hh : 0 ≤ h) (hrh : r * h < 1) :
    HasSum (fun N => a N * h ^ N) (1 / Real.sqrt (1 - 2 * z * h + s * h ^ 2)) := by
  -- summability for every parameter in `[0, h]`
  have hsum : ∀ x : ℝ, 0 ≤ x → x ≤ h → Summable (fun N => ‖a N * x ^ N‖) := by
    intro x hx0 hx
    refine Summable.of_nonneg_of_le (fun _ => norm_nonneg _) (fun N => ?_)
      (summable_geometric_of_lt_one (by positivity) (lt_of_le_of_lt (mul_le_mul_of_nonneg_left hx hr) hrh))
    rw [norm_mul, norm_pow, Real.norm_eq_abs, Real.norm_eq_abs, abs_of_nonneg hx0, mul_pow]
    exact mul_le_mul_of_nonneg_right (hb N) (by positivity)
  -- the square
  have hsq : ∀ x : ℝ, 0 ≤ x → x ≤ h → (∑' N, a N * x ^ N) ^ 2 * (1 - 2 * z * x + s * x ^ 2) = 1 := by
    intro x hx0 hx
    have hf := formal a z s h0 h1 hrec
    set b : ℕ → ℝ := fun n => PowerSeries.coeff n ((PowerSeries.mk a) ^ 2) with hbdef
    have hbc : ∀ n, b n = ∑ kl ∈ Finset.antidiagonal n, a kl.1 * a kl.2 := by
      intro n
      simp only [hbdef, pow_two, PowerSeries.coeff_mul, PowerSeries.coeff_mk]
    have hcoef : ∀ n, PowerSeries.coeff n ((PowerSeries.mk a) ^ 2 *
        (1 - PowerSeries.C (2 * z) * PowerSeries.X + PowerSeries.C s * PowerSeries.X ^ 2)) = if n = 0 then 1 else 0 := by
      intro n; rw [hf, PowerSeries.coeff_one]
    have hexp : (PowerSeries.mk a) ^ 2 * (1 - PowerSeries.C (2 * z) * PowerSeries.X + PowerSeries.C s * PowerSeries.X ^ 2) =
        (PowerSeries.mk a) ^ 2 - PowerSeries.C (2 * z) * (PowerSeries.X * (PowerSeries.mk a) ^ 2) +
          PowerSeries.C s * (PowerSeries.X * (PowerSeries.X * (PowerSeries.mk a) ^ 2)) := by ring
    rw [hexp] at hcoef
    simp only [map_add, map_sub, PowerSeries.coeff_C_mul] at hcoef
    have hb0 : b 0 = 1 := by rw [hbc]; simp [h0]
    have hb1 : b 1 = 2 * z := by
      rw [hbc, Finset.Nat.sum_antidiagonal_eq_sum_range_succ_mk]; simp [Finset.sum_range_succ, h0, h1]; ring
    have hb2 : ∀ n, b (n + 2) = 2 * z * b (n + 1) - s * b n := by
      intro n
      have := hcoef (n + 2)
      rw [if_neg (by omega), PowerSeries.coeff_succ_X_mul, PowerSeries.coeff_succ_X_mul, PowerSeries.coeff_succ_X_mul] at this
      change b (n + 2) - 2 * z * b (n + 1) + s * b n = 0 at this
      linarith
    have hS := hsum x hx0 hx
    have hprod := tsum_mul_tsum_eq_tsum_sum_antidiagonal_of_summable_norm hS hS
    have hpn := (summable_norm_sum_mul_antidiagonal_of_summable_norm hS hS).of_norm
    have hterm : (fun n => ∑ kl ∈ Finset.antidiagonal n, a kl.1 * x ^ kl.1 * (a kl.2 * x ^ kl.2)) = fun n => b n * x ^ n := by
      funext n
      rw [hbc, Finset.sum_mul]
      refine Finset.sum_congr rfl fun kl hkl => ?_
      rw [← Finset.mem_antidiagonal.mp hkl, pow_add]; ring
    rw [hterm] at hprod hpn
    rw [pow_two, hprod]
    -- shift
    have hs1 := hpn.tsum_eq_zero_add
    have hsh1 : Summable (fun n => b (n + 1) * x ^ (n + 1)) := (summable_nat_add_iff 1).mpr hpn
    have hs2 := hsh1.tsum_eq_zero_add
    have hs3 : ∑' n, b (n + 1 + 1) * x ^ (n + 1 + 1) =
        2 * z * x * (∑' n, b (n + 1) * x ^ (n + 1)) - s * x ^ 2 * (∑' n, b n * x ^ n) := by
      rw [← tsum_mul_left, ← tsum_mul_left, ← (hsh1.mul_left _).tsum_sub (hpn.mul_left _)]
      refine tsum_congr fun n => ?_
      rw [show n + 1 + 1 = n + 2 by omega, hb2]; ring
    simp only [zero_add, pow_zero, mul_one, pow_one, hb0, hb1] at hs1 hs2
    rw [hs3] at hs2
    linear_combination hs1 + hs2 - (2 * z * x) * hs1
  -- positivity
  have hcont : ContinuousOn (fun x : ℝ => ∑' N, a N * x ^ N) (Set.Icc 0 h) := by
    refine continuousOn_tsum (u := fun N => ‖a N * h ^ N‖) (fun N => by fun_prop) (hsum h hh le_rfl) ?_
    intro N x hx
    rw [norm_mul, norm_mul, norm_pow, norm_pow, Real.norm_eq_abs x, Real.norm_eq_abs h, abs_of_nonneg hx.1, abs_of_nonneg hh]
    exact mul_le_mul_of_nonneg_left (pow_le_pow_left₀ hx.1 hx.2 N) (norm_nonneg _)
  have hg0 : ∑' N, a N * (0 : ℝ) ^ N = 1 := by
    rw [tsum_eq_single 0]
    · simp [h0]
    · intro N hN; simp [hN]
  have hpos : 0 < ∑' N, a N * h ^ N := by
    by_contra hneg
    have hmem : (0 : ℝ) ∈ Set.Icc (∑' N, a N * h ^ N) (∑' N, a N * (0 : ℝ) ^ N) := ⟨not_lt.mp hneg, by rw [hg0]; norm_num⟩
    obtain ⟨x, hx, hx2⟩ := intermediate_value_Icc' hh hcont hmem
    have := hsq x hx.1 hx.2
    simp only at hx2
    rw [hx2] at this; simp at this
  have hfin := hsq h hh le_rfl
  have hq : 0 < 1 - 2 * z * h + s * h ^ 2 := by
    by_contra hneg
    have : (∑' N, a N * h ^ N) ^ 2 * (1 - 2 * z * h + s * h ^ 2) ≤ 0 :=
      mul_nonpos_of_nonneg_of_nonpos (sq_nonneg _) (not_lt.mp hneg)
    linarith
  have hval : ∑' N, a N * h ^ N = 1 / Real.sqrt (1 - 2 * z * h + s * h ^ 2) := by
    have hs := Real.sqrt_pos.mpr hq
    rw [eq_div_iff hs.ne']
    have h2 : ((∑' N, a N * h ^ N) * Real.sqrt (1 - 2 * z * h + s * h ^ 2)) ^ 2 = 1 := by
      rw [mul_pow, Real.sq_sqrt hq.le, hfin]
    nlinarith [mul_pos hpos hs]
  rw [← hval]
  exact (hsum h hh le_rfl).of_norm.hasSum

end PiBem.Harmonic
