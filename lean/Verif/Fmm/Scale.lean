import Verif.Fmm.Linear
import Verif.Octree.Scale

/-!
# Expansions in another unit of length (helper lemmas for C108)

A multipole coefficient of degree `n` has the dimension of a length to the power `n`, a local one to the power `-n-1`.
-/

noncomputable section

namespace PiBem.Fmm

open PiBem.Octree PiBem.Expansion

variable {s : ℝ}

theorem rho_scaled (hs : 0 < s) (v : V3) : rho (s • v) = s * rho v := by 
  unfold rho
  rw [← Real.sqrt_sq hs.le, ← Real.sqrt_mul (sq_nonneg s), Real.sqrt_sq hs.le]
  congr 1
  simp only [Pi.smul_apply, smul_eq_mul]
  ring

theorem cosA_scaled (hs : 0 < s) (v : V3) : cosA (s • v) = cosA v := by
  unfold cosA
  rw [rho_scaled hs, Pi.smul_apply, smul_eq_mul, mul_div_mul_left _ _ hs.ne']

theorem beta_scaled (hs : 0 < s) (v : V3) : beta (s • v) = beta v := by
  unfold beta
  rw [← Complex.arg_real_mul (⟨v 0, v 1⟩ : ℂ) hs]
  congr 1
  apply Complex.ext <;> simp

/-- multipole coefficients in the new unit -/
def wM (s : ℝ) : Cf →ₗ[ℝ] Cf where
  toFun c n m := (s ^ n : ℝ) • c n m
  map_add' a b := by funext n m; exact smul_add _ _ _
  map_smul' r a := by
    funext n m
    simp only [Pi.smul_apply, Complex.real_smul, RingHom.id_apply]
    ring

/-- local coefficients in the new unit -/
def wL (s : ℝ) : Cf →ₗ[ℝ] Cf where
  toFun c n m := (s ^ (-(n : ℤ) - 1) : ℝ) • c n m
  map_add' a b := by funext n m; exact smul_add _ _ _
  map_smul' r a := by
    funext n m
    simp only [Pi.smul_apply, Complex.real_smul, RingHom.id_apply]
    ring

theorem wM_apply (c : Cf) (n m : ℕ) : wM s c n m = ((s ^ n : ℝ) : ℂ) * c n m := Complex.real_smul

theorem wL_apply (c : Cf) (n m : ℕ) : wL s c n m = ((s ^ (-(n : ℤ) - 1) : ℝ) : ℂ) * c n m := Complex.real_smul

theorem trunc_wM (p : ℕ) (c : Cf) : trunc p (wM s c) = wM s (trunc p c) := by
  funext n m
  rw [wM_apply]
  simp only [trunc, LinearMap.coe_mk, AddHom.coe_mk, wM_apply]
  split_ifs <;> simp

theorem trunc_wL (p : ℕ) (c : Cf) : trunc p (wL s c) = wL s (trunc p c) := by
  funext n m
  rw [wL_apply]
  simp only [trunc, LinearMap.coe_mk, AddHom.coe_mk, wL_apply]
  split_ifs <;> simp

theorem signed_real (r : ℝ) (c c' : ℕ → ℕ → ℂ) (n : ℕ) (h : ∀ m, c' n m = (r : ℂ) * c n m) (k : ℤ) :
    signedCoeff c' n k = (r : ℂ) * signedCoeff c n k := by
  unfold signedCoeff
  rw [h]
  apply Complex.ext <;> simp
  ring

theorem conj_real (r : ℝ) (c c' : ℕ → ℕ → ℂ) (n : ℕ) (h : ∀ m, c' n m = (r : ℂ) * c n m) (k : ℤ) :
    conjCoeff c' n k = (r : ℂ) * conjCoeff c n k := by
  unfold conjCoeff
  rw [h]
  split_ifs
  · apply Complex.ext <;> simp
  · rfl

theorem m2m_scaled (hs : 0 < s) (L : Legendre) (c : Cf) (v : V3) : m2mCoeff L (wM s c) (s • v) = wM s (m2mCoeff L c v) := by
  funext n m
  rw [wM_apply]
  unfold m2mCoeff
  rw [Finset.mul_sum]
  refine Finset.sum_congr rfl fun nn hnn => ?_
  rw [Finset.mul_sum]
  refine Finset.sum_congr rfl fun mm _ => ?_
  have hnn : nn ≤ n := by rw [Finset.mem_range] at hnn; omega
  split_ifs
  · rw [mul_zero]
  · simp only
    rw [signed_real (s ^ (n - nn)) c (wM s c) (n - nn) (fun m => wM_apply c _ m), rho_scaled hs, cosA_scaled hs, beta_scaled hs, mul_pow]
    have e : s ^ n = s ^ (n - nn) * s ^ nn := by rw [← pow_add, Nat.sub_add_cancel hnn]
    rw [e]
    push_cast
    ring

theorem m2l_scaled (hs : 0 < s) (L : Legendre) (p : ℕ) (c : Cf) (v : V3) : m2lCoeff L p (wM s c) (s • v) = wL s (m2lCoeff L p c v) := by
  funext n m
  rw [wL_apply]
  unfold m2lCoeff
  rw [Finset.mul_sum]
  refine Finset.sum_congr rfl fun nn _ => ?_
  rw [Finset.mul_sum]
  refine Finset.sum_congr rfl fun mm _ => ?_
  simp only
  rw [conj_real (s ^ nn) c (wM s c) nn (fun m => wM_apply c _ m), rho_scaled hs, cosA_scaled hs, beta_scaled hs, mul_zpow]
  have e : s ^ (-(n : ℤ) - nn - 1) * s ^ nn = s ^ (-(n : ℤ) - 1) := by
    rw [← zpow_natCast, ← zpow_add₀ hs.ne']
    congr 1
    ring
  rw [← e]
  push_cast
  ring

theorem l2l_scaled (hs : 0 < s) (L : Legendre) (p : ℕ) (c : Cf) (v : V3) : l2lCoeff L p (wL s c) (s • v) = wL s (l2lCoeff L p c v) := by
  funext n m
  rw [wL_apply]
  unfold l2lCoeff
  rw [Finset.mul_sum]
  refine Finset.sum_congr rfl fun nn hnn => ?_
  rw [Finset.mul_sum]
  refine Finset.sum_congr rfl fun mm _ => ?_
  have hnn : n ≤ nn := (Finset.mem_Icc.1 hnn).1
  split_ifs
  · rw [mul_zero]
  · simp only
    rw [signed_real (s ^ (-(nn : ℤ) - 1)) c (wL s c) nn (fun m => wL_apply c _ m), rho_scaled hs, cosA_scaled hs, beta_scaled hs, mul_pow]
    have e : s ^ (-(nn : ℤ) - 1) * s ^ (nn - n) = s ^ (-(n : ℤ) - 1) := by
      rw [← zpow_natCast, ← zpow_add₀ hs.ne']
      congr 1
      push_cast [Nat.cast_sub hnn]
      ring
    rw [← e]
    push_cast
    ring

theorem mEval_scaled (hs : 0 < s) (L : Legendre) (p : ℕ) (ctr x : V3) (c : Cf) :
    mEvalMap L p (s • ctr) (s • x) (wM s c) = s⁻¹ * mEvalMap L p ctr x c := by
  show mEvalFull L _ _ = s⁻¹ * mEvalFull L _ _
  simp only [mEvalFull]
  rw [← smul_sub, rho_scaled hs, cosA_scaled hs, beta_scaled hs, ← Complex.re_ofReal_mul, Finset.mul_sum]
  congr 1
  refine Finset.sum_congr rfl fun n _ => ?_
  have e : s ^ n * s ^ (-(n : ℤ) - 1) = s⁻¹ := by
    rw [← zpow_natCast, ← zpow_add₀ hs.ne', ← zpow_neg_one]
    congr 1
    ring
  rw [mul_add, Finset.mul_sum, ← e]
  congr 1
  · rw [wM_apply, mul_zpow]; push_cast; ring
  · refine Finset.sum_congr rfl fun m _ => ?_
    rw [wM_apply, mul_zpow]; push_cast; ring

theorem lEval_scaled (hs : 0 < s) (L : Legendre) (p : ℕ) (ctr x : V3) (c : Cf) :
    lEvalMap L p (s • ctr) (s • x) (wL s c) = s⁻¹ * lEvalMap L p ctr x c := by
  show lEvalFull L _ _ = s⁻¹ * lEvalFull L _ _
  simp only [lEvalFull]
  rw [← smul_sub, rho_scaled hs, cosA_scaled hs, beta_scaled hs, ← Complex.re_ofReal_mul, Finset.mul_sum]
  congr 1
  refine Finset.sum_congr rfl fun n _ => ?_
  have e : s ^ (-(n : ℤ) - 1) * s ^ n = s⁻¹ := by
    rw [← zpow_natCast, ← zpow_add₀ hs.ne', ← zpow_neg_one]
    congr 1
    ring
  rw [mul_add, Finset.mul_sum, ← e]
  congr 1
  · rw [wL_apply, mul_pow]; push_cast; ring
  · refine Finset.sum_congr rfl fun m _ => ?_
    rw [wL_apply, mul_pow]; push_cast; ring

theorem sourceCoeff_scaled (hs : 0 < s) (L : Legendre) (q : ℝ) (v : V3) :
    sourceCoeff L (s ^ 2 * q) (s • v) = (s ^ 2) • wM s (sourceCoeff L q v) := by
  funext n m
  rw [Pi.smul_apply, Pi.smul_apply, wM_apply, Complex.real_smul]
  unfold sourceCoeff
  rw [rho_scaled hs, cosA_scaled hs, beta_scaled hs, mul_pow]
  push_cast
  ring

theorem normDerCoeff_scaled (hs : 0 < s) (L : Legendre) (q : ℝ) (v normal : V3) :
    normDerCoeff L (s ^ 2 * q) (s • v) normal = s • wM s (normDerCoeff L q v normal) := by
  funext n m
  rw [Pi.smul_apply, Pi.smul_apply, wM_apply, Complex.real_smul]
  unfold normDerCoeff
  simp only [rho_scaled hs, cosA_scaled hs, beta_scaled hs, Pi.smul_apply, smul_eq_mul]
  have h1 : ∀ k, s * v k / (s * rho v) = v k / rho v := fun k => mul_div_mul_left _ _ hs.ne'
  have h2 : ∀ k, (![-(s * v 1), s * v 0, 0] : V3) k / ((s * v 0) ^ 2 + (s * v 1) ^ 2) =
      s⁻¹ * ((![-v 1, v 0, 0] : V3) k / (v 0 ^ 2 + v 1 ^ 2)) := by
    intro k
    have e : (s * v 0) ^ 2 + (s * v 1) ^ 2 = s * (s * (v 0 ^ 2 + v 1 ^ 2)) := by ring
    have e' : (![-(s * v 1), s * v 0, 0] : V3) k = s * (![-v 1, v 0, 0] : V3) k := by
      fin_cases k <;> simp
    rw [e, e', mul_div_mul_left _ _ hs.ne', div_mul_eq_div_div_swap, div_eq_mul_inv _ s, mul_comm]
  have h3 : ∀ (w : V3) k, w k / (s * rho v) = s⁻¹ * (w k / rho v) := by
    intro w k
    rw [div_mul_eq_div_div_swap, div_eq_mul_inv _ s, mul_comm]
  have h4 : ∀ (r : ℝ) (w u : V3), dot (fun k => r * w k) u = r * dot w u := by
    intro r w u
    unfold dot
    ring
  simp only [h1, h2, h3]
  rw [h4, h4]
  have e1 : (s * rho v) ^ ((n : ℤ) - 1) = s⁻¹ * s ^ n * rho v ^ ((n : ℤ) - 1) := by
    rw [mul_zpow, zpow_sub₀ hs.ne', zpow_natCast, zpow_one, div_eq_mul_inv, mul_comm (s ^ n)]
  have hs' : s⁻¹ * s = 1 := inv_mul_cancel₀ hs.ne'
  rw [e1, mul_pow]
  generalize rho v ^ ((n : ℤ) - 1) = R
  generalize rho v ^ n = R'
  generalize s ^ n = S
  generalize L.fn n m (cosA v) = P
  generalize L.der n m (cosA v) = P'
  generalize Real.sqrt (1 - cosA v ^ 2) = W
  have hinv : s ^ 2 * s⁻¹ = s := by field_simp
  rw [mul_assoc (cis _), mul_assoc (cis _), mul_left_comm _ (cis _), mul_left_comm _ (cis _)]
  congr 1
  apply Complex.ext
  · simp only [Complex.mul_re, Complex.ofReal_re, Complex.ofReal_im, mul_zero, sub_zero, zero_mul, Complex.mul_im, add_zero, zero_add]
    field_simp
  · simp only [Complex.mul_re, Complex.ofReal_re, Complex.ofReal_im, mul_zero, sub_zero, zero_mul, Complex.mul_im, add_zero, zero_add]
    field_simp

end PiBem.Fmm
