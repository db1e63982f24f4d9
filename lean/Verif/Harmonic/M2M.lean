import Verif.Harmonic.Moments

/-!
# Translation of multipole expansions

Mathematics used by the proofs of the translation formulas.
-/

noncomputable section

namespace PiBem.Harmonic

open Polynomial Complex PiBem.Legendre PiBem.Expansion

theorem coeff_mul_range (A B : ℂ[X]) (a b K : ℕ) (hA : A.natDegree ≤ a) (hB : B.natDegree ≤ b) :
    (A * B).coeff K =
      ∑ k ∈ Finset.range (a + 1), if k ≤ K ∧ K - k ≤ b then A.coeff k * B.coeff (K - k) else 0 := by
  rw [coeff_mul, Finset.Nat.sum_antidiagonal_eq_sum_range_succ_mk]
  have h1 : ∑ k ∈ Finset.range K.succ, A.coeff k * B.coeff (K - k) =
      ∑ k ∈ Finset.range (a + 1 + (K + 1)), if k ≤ K ∧ K - k ≤ b then A.coeff k * B.coeff (K - k) else 0 := by
    rw [show a + 1 + (K + 1) = K.succ + (a + 1) by omega, Finset.sum_range_add]
    rw [Finset.sum_eq_zero (s := Finset.range (a + 1)), add_zero]
    · refine Finset.sum_congr rfl fun k hk => ?_
      simp only [Finset.mem_range] at hk
      split_ifs with h
      · rfl
      · rw [coeff_eq_zero_of_natDegree_lt (p := B) (by omega), mul_zero]
    · intro k _
      rw [if_neg (by omega)]
  rw [h1, Finset.sum_range_add, Finset.sum_eq_zero (s := Finset.range (K + 1)), add_zero]
  intro k _
  rw [coeff_eq_zero_of_natDegree_lt (p := A) (by omega), zero_mul, ite_self]

theorem abs_cosA (v : V3) : -1 ≤ cosA v ∧ cosA v ≤ 1 := by
  by_cases hv : v = 0
  · subst hv; simp [cosA]
  · have hr : 0 < rho v := lt_of_le_of_ne (rho_nonneg v) fun h => hv (rho_eq_zero.mp h.symm)
    have h2 : |v 2| ≤ rho v := by
      rw [← Real.sqrt_sq_eq_abs, rho]
      exact Real.sqrt_le_sqrt (by nlinarith [sq_nonneg (v 0), sq_nonneg (v 1)])
    rw [abs_le] at h2
    rw [cosA, le_div_iff₀ hr, div_le_iff₀ hr]
    constructor <;> linarith [h2.1, h2.2]

theorem signedCoeff_eq {c : ℕ → ℕ → ℂ} {n : ℕ} {P : ℂ[X]} (hP : Sym n P)
    (hc : ∀ m, m ≤ n → c n m = W n m * (starRingEnd ℂ) (P.coeff (n + m))) (k : ℤ) (hk : k.natAbs ≤ n) :
    signedCoeff c n k = eps k * W n k.natAbs * (starRingEnd ℂ) (P.coeff (n + k).toNat) := by
  rcases lt_trichotomy k 0 with h | h | h
  · have e : signedCoeff c n k = (starRingEnd ℂ) (c n k.natAbs) := by
      apply Complex.ext <;> simp [signedCoeff, gslSign, h]
    rw [e, hc _ hk, map_mul, Complex.conj_ofReal, Complex.conj_conj, eps, if_pos h]
    rw [hP.conj _ (by omega), show 2 * n - ((n : ℤ) + k).toNat = n + k.natAbs by omega]
    rw [show ((n : ℤ) + k).toNat = n - k.natAbs by omega]
    push_cast
    rw [mul_comm ((-1 : ℂ) ^ k.natAbs), mul_assoc, ← mul_assoc ((-1 : ℂ) ^ k.natAbs), ← pow_add]
    rw [show k.natAbs + (n + (n - k.natAbs)) = 2 * n by omega, pow_mul]; simp
  · subst h
    have h2 := hP.conj n (by omega)
    rw [show n + n = 2 * n by omega, pow_mul, show 2 * n - n = n by omega] at h2
    simp only [even_two, Even.neg_pow, one_pow, one_mul] at h2
    have h3 := hc 0 (by omega)
    simp only [add_zero, h2] at h3
    have him : (P.coeff n).im = 0 := Complex.conj_eq_iff_im.mp h2
    simp only [signedCoeff, gslSign, Int.natAbs_zero, lt_irrefl, if_false, zero_mul, eps, add_zero, Int.toNat_natCast, h2, h3]
    apply Complex.ext <;> simp [him]
  · have e : signedCoeff c n k = c n k.natAbs := by
      apply Complex.ext <;> simp [signedCoeff, gslSign, h, not_lt.mpr h.le]
    rw [e, hc _ hk, eps, if_neg (by omega), show ((n : ℤ) + k).toNat = n + k.natAbs by omega]
    simp

theorem solid_int_conj (v : V3) (n : ℕ) (k : ℤ) (hk : k.natAbs ≤ n) :
    ((assLeg n k.natAbs (cosA v) * rho v ^ n : ℝ) : ℂ) * cis (-k * beta v) =
      eps k * W n k.natAbs * (starRingEnd ℂ) (R n (n + k).toNat v) := by
  have h := congrArg (starRingEnd ℂ) (solid_int v n k hk)
  simpa [conj_cis, Complex.conj_ofReal] using h

/-- The translated coefficients are those of the translated polynomials. -/
theorem m2m_eq (L : Legendre) (hL : IsTable L) (c : ℕ → ℕ → ℂ) (P : ℕ → ℂ[X]) (v : V3) (n m : ℕ) (hn : n ≤ 20)
    (hm : m ≤ n) (hP : ∀ k ≤ n, Sym k (P k))
    (hc : ∀ k ≤ n, ∀ m, m ≤ k → c k m = W k m * (starRingEnd ℂ) ((P k).coeff (k + m))) :
    m2mCoeff L c v n m =
      W n m * (starRingEnd ℂ) ((∑ j ∈ Finset.range (n + 1), Qd j v * P (n - j)).coeff (n + m)) := by
  rw [m2mCoeff, finsetSum_coeff, map_sum, Finset.mul_sum]
  refine Finset.sum_congr rfl fun j hj => ?_
  have hj : j ≤ n := by simpa [Nat.lt_succ_iff] using hj
  rw [sum_Icc_shift, coeff_mul_range _ _ (2 * j) (2 * (n - j)) _ (sym_Qd j v).1 (hP (n - j) (by omega)).1, map_sum,
    Finset.mul_sum]
  refine Finset.sum_congr rfl fun k hk => ?_
  have hk : k ≤ 2 * j := by simpa [Nat.lt_succ_iff] using hk
  by_cases hcond : k ≤ n + m ∧ n + m - k ≤ 2 * (n - j)
  · rw [if_pos hcond, if_neg (by omega)]
    have hkj : ((k : ℤ) - j).natAbs ≤ j := by omega
    have hkn : ((m : ℤ) - (k - j)).natAbs ≤ n - j := by omega
    rw [signedCoeff_eq (hP (n - j) (by omega)) (hc (n - j) (by omega)) _ hkn]
    have h1 := solid_int_conj v j (k - j) hkj
    rw [hL.fn j _ _ (by omega) hkj (abs_cosA v).1 (abs_cosA v).2]
    rw [iPow_m2m, Anm_eq, Anm_eq, Anm_eq, map_mul, coeff_Qd]
    rw [show ((j : ℤ) + ((k : ℤ) - j)).toNat = k by omega] at h1
    rw [show ((((n - j : ℕ) : ℤ)) + ((m : ℤ) - (k - j))).toNat = n + m - k by omega]
    have hW1 : (W j ((k : ℤ) - j).natAbs : ℂ) ≠ 0 := by exact_mod_cast (W_pos _ _).ne'
    have hW2 : (W (n - j) ((m : ℤ) - (k - j)).natAbs : ℂ) ≠ 0 := by exact_mod_cast (W_pos _ _).ne'
    have hW3 : (W n m : ℂ) ≠ 0 := by exact_mod_cast (W_pos _ _).ne'
    have he1 : (eps ((k : ℤ) - j) : ℂ) * eps ((k : ℤ) - j) = 1 := by exact_mod_cast eps_mul_self _
    have he2 : (eps ((m : ℤ) - (k - j)) : ℂ) * eps ((m : ℤ) - (k - j)) = 1 := by exact_mod_cast eps_mul_self _
    have hs : (-1 : ℂ) ^ j * (-1) ^ (n - j) / (-1) ^ n = 1 := by
      rw [← pow_add, show j + (n - j) = n by omega, div_self (pow_ne_zero _ (by norm_num))]
    push_cast at h1 ⊢
    generalize (starRingEnd ℂ) ((P (n - j)).coeff (n + m - k)) = A at *
    generalize (starRingEnd ℂ) (R j k v) = B at *
    generalize (eps ((k : ℤ) - j) : ℂ) = e1 at *
    generalize (eps ((m : ℤ) - (k - j)) : ℂ) = e2 at *
    generalize (W j ((k : ℤ) - j).natAbs : ℂ) = w1 at *
    generalize (W (n - j) ((m : ℤ) - (k - j)).natAbs : ℂ) = w2 at *
    generalize (W n m : ℂ) = w3 at *
    generalize (assLeg j ((k : ℤ) - j).natAbs (cosA v) : ℂ) = F at *
    generalize cis (-((k : ℝ) - j) * beta v) = G at *
    generalize (rho v : ℂ) ^ j = r at *
    have h2 : F * r * ((-1) ^ j / w1) * ((-1) ^ (n - j) / w2) / ((-1) ^ n / w3) * (e1 * e2) * (e2 * w2 * A * G) =
      (F * r * G) * ((-1) ^ j * (-1) ^ (n - j) / (-1) ^ n) * (w3 / w1) * e1 * (e2 * e2) * A := by
      field_simp
    rw [h2, h1, hs, he2]
    have h3 : e1 * w1 * B * 1 * (w3 / w1) * e1 * 1 * A = (e1 * e1) * w3 * B * A := by field_simp
    rw [h3, he1]; ring
  · rw [if_neg hcond, if_pos (by omega)]; simp

end PiBem.Harmonic
