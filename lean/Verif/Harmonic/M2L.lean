import Verif.Harmonic.Local

/-!
# Conversion of multipole expansions into local expansions

Mathematics used by the proofs: the converted expansion is the pairing with the irregular harmonics of the difference of
the centres.
-/

noncomputable section

namespace PiBem.Harmonic

open Polynomial Complex PiBem.Legendre PiBem.Expansion

/-- Coefficients of the converted expansion for all orders. -/
def m2lA (p : ℕ) (σ : ℕ → ℂ[X]) (v : V3) (n i : ℕ) : ℂ :=
  ∑ nn ∈ Finset.range (p + 1), ∑ j ∈ Finset.range (2 * nn + 1),
    (-1) ^ nn * ((i + j).factorial * (2 * (n + nn) - (i + j)).factorial * (starRingEnd ℂ) (R (n + nn) (i + j) v) *
      (σ nn).coeff j / (rho v : ℂ) ^ (2 * (n + nn) + 1))

theorem conjCoeff_eq {c : ℕ → ℕ → ℂ} {n : ℕ} {P : ℂ[X]} (hP : Sym n P)
    (hc : ∀ m, m ≤ n → c n m = W n m * (starRingEnd ℂ) (P.coeff (n + m))) (k : ℤ) (hk : k.natAbs ≤ n) :
    conjCoeff c n k = eps k * W n k.natAbs * (starRingEnd ℂ) (P.coeff (n + k).toNat) := by
  rcases lt_trichotomy k 0 with h | h | h
  · rw [← signedCoeff_eq hP hc k hk]
    apply Complex.ext <;> simp [signedCoeff, conjCoeff, gslSign, h]
  · subst h
    simp only [conjCoeff, lt_irrefl, if_false, Int.natAbs_zero, hc 0 (by omega), eps, add_zero, Int.toNat_natCast]
    simp
  · rw [← signedCoeff_eq hP hc k hk]
    apply Complex.ext <;> simp [signedCoeff, conjCoeff, gslSign, h, not_lt.mpr h.le]

theorem m2l_eq (L : Legendre) (hL : IsTable L) (p : ℕ) (c : ℕ → ℕ → ℂ) (σ : ℕ → ℂ[X]) (v : V3) (hv : v ≠ 0) (n m : ℕ)
    (hp : n + p ≤ 20) (hm : m ≤ n) (hσ : ∀ k ≤ p, Sym k (σ k))
    (hc : ∀ k ≤ p, ∀ m, m ≤ k → c k m = W k m * (starRingEnd ℂ) ((σ k).coeff (k + m))) :
    W n m * m2lCoeff L p c v n m = m2lA p σ v n (n + m) := by
  have hr : (rho v : ℂ) ≠ 0 := by exact_mod_cast fun h => hv (rho_eq_zero.mp h)
  rw [m2lCoeff, m2lA, Finset.mul_sum]
  refine Finset.sum_congr rfl fun nn hnn => ?_
  have hnn : nn ≤ p := by simpa [Nat.lt_succ_iff] using hnn
  rw [sum_Icc_shift, Finset.mul_sum, ← Finset.sum_range_reflect (n := 2 * nn + 1)]
  refine Finset.sum_congr rfl fun j hj => ?_
  have hj : j ≤ 2 * nn := by simpa [Nat.lt_succ_iff] using hj
  rw [show 2 * nn + 1 - 1 - j = 2 * nn - j by omega]
  have hk1 : (((2 * nn - j : ℕ) : ℤ) - nn).natAbs ≤ nn := by omega
  have hk2 : (((2 * nn - j : ℕ) : ℤ) - nn - m).natAbs ≤ n + nn := by omega
  have h1 := solid_int v (n + nn) (((2 * nn - j : ℕ) : ℤ) - nn - m) hk2
  rw [show ((((n + nn : ℕ) : ℤ)) + (((2 * nn - j : ℕ) : ℤ) - nn - m)).toNat = 2 * (n + nn) - (n + m + j) by omega] at h1
  have h2 := conjCoeff_eq (hσ nn hnn) (hc nn hnn) (((2 * nn - j : ℕ) : ℤ) - nn) hk1
  rw [show ((nn : ℤ) + (((2 * nn - j : ℕ) : ℤ) - nn)).toNat = 2 * nn - j by omega, (hσ nn hnn).conj _ (by omega),
    show 2 * nn - (2 * nn - j) = j by omega] at h2
  have hpow : ((rho v ^ (-(n : ℤ) - nn - 1) : ℝ) : ℂ) = (rho v : ℂ) ^ (n + nn) / (rho v : ℂ) ^ (2 * (n + nn) + 1) := by
    rw [Complex.ofReal_zpow, show (-(n : ℤ) - nn - 1) = ((n + nn : ℕ) : ℤ) - ((2 * (n + nn) + 1 : ℕ) : ℤ) by push_cast; ring,
      zpow_sub₀ hr, zpow_natCast, zpow_natCast]
  have hW : (W (n + nn) (((2 * nn - j : ℕ) : ℤ) - nn - m).natAbs : ℂ) ^ 2 =
      (n + m + j).factorial * (2 * (n + nn) - (n + m + j)).factorial := by
    have h3 : (W (n + nn) (((2 * nn - j : ℕ) : ℤ) - nn - m).natAbs : ℂ) ^ 2 =
      ((n + nn - (((2 * nn - j : ℕ) : ℤ) - nn - m).natAbs).factorial : ℂ) *
        ((n + nn + (((2 * nn - j : ℕ) : ℤ) - nn - m).natAbs).factorial : ℂ) := by exact_mod_cast W_sq _ _
    rw [h3]
    rcases le_or_gt (0 : ℤ) (((2 * nn - j : ℕ) : ℤ) - nn - m) with hh | hh
    · rw [show n + nn - (((2 * nn - j : ℕ) : ℤ) - nn - m).natAbs = n + m + j by omega,
        show n + nn + (((2 * nn - j : ℕ) : ℤ) - nn - m).natAbs = 2 * (n + nn) - (n + m + j) by omega]
    · rw [show n + nn - (((2 * nn - j : ℕ) : ℤ) - nn - m).natAbs = 2 * (n + nn) - (n + m + j) by omega,
        show n + nn + (((2 * nn - j : ℕ) : ℤ) - nn - m).natAbs = n + m + j by omega, mul_comm]
  have hna : ((m : ℤ) - (((2 * nn - j : ℕ) : ℤ) - nn)).natAbs = (((2 * nn - j : ℕ) : ℤ) - nn - m).natAbs := by omega
  have hca : (((((2 * nn - j : ℕ) : ℤ) - nn : ℤ) : ℝ) - m) = ((((2 * nn - j : ℕ) : ℤ) - nn - m : ℤ) : ℝ) := by push_cast; ring
  rw [h2, conj_R _ _ _ (by omega), m2lTable, iPow_m2l, Anm_eq, Anm_eq, Anm_eq, rect_cis, hna, add_comm nn n,
    hL.fn (n + nn) _ _ (by omega) hk2 (abs_cosA v).1 (abs_cosA v).2, hca]
  simp only [Complex.ofReal_mul, hpow]
  have hW1 : (W nn (((2 * nn - j : ℕ) : ℤ) - nn).natAbs : ℂ) ≠ 0 := by exact_mod_cast (W_pos _ _).ne'
  have hW2 : (W (n + nn) (((2 * nn - j : ℕ) : ℤ) - nn - m).natAbs : ℂ) ≠ 0 := by exact_mod_cast (W_pos _ _).ne'
  have hW3 : (W n m : ℂ) ≠ 0 := by exact_mod_cast (W_pos _ _).ne'
  have he1 : (eps (((2 * nn - j : ℕ) : ℤ) - nn) : ℂ) * eps (((2 * nn - j : ℕ) : ℤ) - nn) = 1 := by exact_mod_cast eps_mul_self _
  have he2 : (eps (((2 * nn - j : ℕ) : ℤ) - nn - m) : ℂ) * eps (((2 * nn - j : ℕ) : ℤ) - nn - m) = 1 := by
    exact_mod_cast eps_mul_self _
  have hs : (-1 : ℂ) ^ (nn + (2 * nn - j)) * ((-1) ^ nn / (-1) ^ (n + nn) * (-1) ^ n * ((-1) ^ m / (-1) ^ nn)) =
      (-1) ^ nn * (-1) ^ (n + nn + (n + m + j)) := by
    have hne : (-1 : ℂ) ^ nn ≠ 0 := pow_ne_zero _ (by norm_num)
    have hne2 : (-1 : ℂ) ^ (n + nn) ≠ 0 := pow_ne_zero _ (by norm_num)
    field_simp
    simp only [← pow_add]
    exact neg_one_sq_pow _ _ (by omega)
  simp only [Complex.ofReal_mul, Complex.ofReal_div, Complex.ofReal_pow, Complex.ofReal_neg, Complex.ofReal_one] at h1 ⊢
  generalize (σ nn).coeff j = A at *
  generalize R (n + nn) (2 * (n + nn) - (n + m + j)) v = B at *
  generalize (eps (((2 * nn - j : ℕ) : ℤ) - nn) : ℂ) = e1 at *
  generalize (eps (((2 * nn - j : ℕ) : ℤ) - nn - m) : ℂ) = e2 at *
  generalize (W nn (((2 * nn - j : ℕ) : ℤ) - nn).natAbs : ℂ) = w1 at *
  generalize (W (n + nn) (((2 * nn - j : ℕ) : ℤ) - nn - m).natAbs : ℂ) = w2 at *
  generalize (W n m : ℂ) = w3 at *
  generalize (assLeg (n + nn) (((2 * nn - j : ℕ) : ℤ) - nn - m).natAbs (cosA v) : ℂ) = F at *
  generalize cis (((((2 * nn - j : ℕ) : ℤ) - nn - m : ℤ) : ℝ) * beta v) = G at *
  generalize (rho v : ℂ) ^ (n + nn) = r at *
  generalize (rho v : ℂ) ^ (2 * (n + nn) + 1) = d at *
  rw [← hW]
  calc _ = (F * r * G) * ((-1 : ℂ) ^ (nn + (2 * nn - j)) * ((-1) ^ nn / (-1) ^ (n + nn) * (-1) ^ n * ((-1) ^ m / (-1) ^ nn))) *
          w2 * (e1 * e1) * e2 * A / d := by
          field_simp
    _ = (e2 * e2) * w2 ^ 2 * B * ((-1) ^ nn * (-1) ^ (n + nn + (n + m + j))) * A / d := by rw [h1, hs, he1]; ring
    _ = _ := by rw [he2]; ring

theorem sy_m2lA (p : ℕ) (σ : ℕ → ℂ[X]) (hσ : ∀ k ≤ p, Sym k (σ k)) (v : V3) (n : ℕ) : Sy n (m2lA p σ v n) := by
  intro i hi
  rw [m2lA, m2lA, map_sum, Finset.mul_sum]
  refine Finset.sum_congr rfl fun nn hnn => ?_
  have hnn : nn ≤ p := by simpa [Nat.lt_succ_iff] using hnn
  rw [map_sum, Finset.mul_sum, ← Finset.sum_range_reflect (n := 2 * nn + 1)]
  refine Finset.sum_congr rfl fun j hj => ?_
  have hj : j ≤ 2 * nn := by simpa [Nat.lt_succ_iff] using hj
  rw [show 2 * nn + 1 - 1 - j = 2 * nn - j by omega]
  simp only [map_mul, map_div₀, map_pow, map_neg, map_one, map_natCast, Complex.conj_conj, Complex.conj_ofReal]
  rw [(hσ nn hnn).conj _ (by omega), conj_R _ _ _ (by omega), show 2 * nn - (2 * nn - j) = j by omega]
  rw [show 2 * (n + nn) - (2 * n - i + j) = i + (2 * nn - j) by omega,
    show 2 * (n + nn) - (i + (2 * nn - j)) = 2 * n - i + j by omega]
  have : (-1 : ℂ) ^ (nn + (2 * nn - j)) = (-1) ^ (n + i) * (-1) ^ (n + nn + (2 * n - i + j)) := by
    rw [← pow_add]; exact neg_one_sq_pow _ _ (by omega)
  rw [this]; ring

theorem m2l_sum (p : ℕ) (σ : ℕ → ℂ[X]) (hσ : ∀ k ≤ p, Sym k (σ k)) (v y : V3) :
    ∑ n ∈ Finset.range (p + 1), ∑ i ∈ Finset.range (2 * n + 1), m2lA p σ v n i * R n i y =
      ∑ n ∈ Finset.range (p + 1), ∑ nn ∈ Finset.range (p + 1), (-1) ^ nn * fld (nn + n) v (σ nn * Qd n y) := by
  refine Finset.sum_congr rfl fun n _ => ?_
  simp only [m2lA, Finset.sum_mul]
  rw [Finset.sum_comm]
  refine Finset.sum_congr rfl fun nn hnn => ?_
  have hnn : nn ≤ p := by simpa [Nat.lt_succ_iff] using hnn
  have hdeg := (hσ nn hnn).1
  have hg : ∀ K, (σ nn * Qd n y).coeff K = ∑ j ∈ Finset.range (2 * nn + 1), ∑ i ∈ Finset.range (2 * n + 1),
      if i + j = K then (σ nn).coeff j * R n i y else 0 := by
    intro K
    rw [coeff_mul_range _ _ (2 * nn) (2 * n) K hdeg (sym_Qd n y).1]
    refine Finset.sum_congr rfl fun j _ => ?_
    split_ifs with h
    · rw [Finset.sum_eq_single (K - j)]
      · rw [if_pos (by omega), coeff_Qd]
      · intro i _ hi; rw [if_neg (by omega)]
      · intro hh; simp only [Finset.mem_range, not_lt] at hh; omega
    · refine (Finset.sum_eq_zero fun i hi => ?_).symm
      have := Finset.mem_range.mp hi
      rw [if_neg (by omega)]
  rw [fld, pair, Finset.sum_div, Finset.mul_sum, Finset.sum_comm]
  simp only [hg, Finset.mul_sum, Finset.sum_div]
  rw [Finset.sum_comm (s := Finset.range (2 * (nn + n) + 1))]
  refine Finset.sum_congr rfl fun j hj => ?_
  have hj := Finset.mem_range.mp hj
  rw [Finset.sum_comm (s := Finset.range (2 * (nn + n) + 1))]
  refine Finset.sum_congr rfl fun i hi => ?_
  have hi := Finset.mem_range.mp hi
  rw [Finset.sum_eq_single (i + j)]
  · rw [if_pos rfl, coeff_map, coeff_Qd, add_comm nn n]; ring
  · intro K _ hK; rw [if_neg (Ne.symm hK)]; simp
  · intro hh; simp only [Finset.mem_range, not_lt] at hh; omega

/-- Evaluation of the converted expansion. -/
theorem m2l_eval (L : Legendre) (hL : IsTable L) (e : Exp) (c : ℕ → ℕ → ℂ) (σ : ℕ → ℂ[X]) (v : V3) (hv : v ≠ 0)
    (hp : e.p + e.p ≤ 20) (hσ : ∀ k ≤ e.p, Sym k (σ k))
    (hc : ∀ k ≤ e.p, ∀ m, m ≤ k → c k m = W k m * (starRingEnd ℂ) ((σ k).coeff (k + m))) (x : V3) :
    lEvalFull L { e with coeff := m2lCoeff L e.p c v } x = ∑ n ∈ Finset.range (e.p + 1), ∑ nn ∈ Finset.range (e.p + 1),
      (-1) ^ nn * (fld (nn + n) v (σ nn * Qd n (x - e.center))).re := by
  rw [lEval_eq L hL { e with coeff := m2lCoeff L e.p c v } x (by simp only; omega) (m2lA e.p σ v)
    (fun n _ => sy_m2lA _ _ hσ _ n) ?_ ?_, m2l_sum _ _ hσ]
  · simp only [Complex.re_sum]
    refine Finset.sum_congr rfl fun n _ => Finset.sum_congr rfl fun nn _ => ?_
    rw [show ((-1 : ℂ) ^ nn) = (((-1) ^ nn : ℝ) : ℂ) by push_cast; rfl, Complex.re_ofReal_mul]
  · intro n hn
    have h := m2l_eq L hL e.p c σ v hv n 0 (by simp only at hn; omega) (by omega) hσ hc
    rw [add_zero] at h
    rw [← h]; simp
  · intro n m hn _ hm
    exact m2l_eq L hL e.p c σ v hv n m (by simp only at hn; omega) hm hσ hc

end PiBem.Harmonic
