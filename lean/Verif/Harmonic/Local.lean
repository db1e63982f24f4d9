import Verif.Harmonic.Eval

/-!
# Translation of local expansions, conversion of multipole expansions

Mathematics used by the proofs: the translated local expansion is the re-expansion of the same polynomial; the converted
expansion is the pairing with the irregular harmonics of the difference of the centres.
-/

noncomputable section

namespace PiBem.Harmonic

open Polynomial Complex PiBem.Legendre PiBem.Expansion

/-- Coefficients of a local expansion for all orders (`k` is `n` plus the order). -/
def lc (c : ℕ → ℕ → ℂ) (n k : ℕ) : ℂ :=
  eps ((k : ℤ) - n) * W n ((k : ℤ) - n).natAbs * signedCoeff c n ((k : ℤ) - n)

theorem conj_signedCoeff (c : ℕ → ℕ → ℂ) (n : ℕ) (k : ℤ) : (starRingEnd ℂ) (signedCoeff c n k) = signedCoeff c n (-k) := by
  apply Complex.ext
  · simp [signedCoeff]
  · simp only [signedCoeff, Complex.conj_im, Int.natAbs_neg, gslSign]
    split_ifs <;> first | omega | ring

theorem eps_neg (k : ℤ) : eps (-k) = (-1) ^ k.natAbs * eps k := by
  unfold eps
  split_ifs with h1 h2 h2
  · omega
  · simp
  · rw [← mul_pow]; simp
  · obtain rfl : k = 0 := by omega
    simp

theorem sy_lc (c : ℕ → ℕ → ℂ) (n : ℕ) : Sy n (lc c n) := by
  intro k hk
  have e : (((2 * n - k : ℕ) : ℤ) - n) = -((k : ℤ) - n) := by omega
  rw [lc, lc, map_mul, map_mul, Complex.conj_ofReal, Complex.conj_ofReal, conj_signedCoeff, e, eps_neg, Int.natAbs_neg]
  push_cast
  have : (-1 : ℂ) ^ (n + k) * (-1) ^ ((k : ℤ) - n).natAbs = 1 := by
    rw [neg_one_sq_pow (n + k) ((k : ℤ) - n).natAbs (by omega), ← mul_pow]; simp
  linear_combination (-(eps ((k : ℤ) - n) * W n ((k : ℤ) - n).natAbs * signedCoeff c n (-((k : ℤ) - n)))) * this

theorem lc_pos (c : ℕ → ℕ → ℂ) (n m : ℕ) (hm : 1 ≤ m) : W n m * c n m = lc c n (n + m) := by
  have e : (((n + m : ℕ) : ℤ) - n) = m := by omega
  have h : signedCoeff c n (m : ℤ) = c n m := by
    apply Complex.ext
    · simp [signedCoeff]
    · simp [signedCoeff, gslSign, show 0 < m by omega]
  rw [lc, e, h, Int.natAbs_natCast, eps, if_neg (by omega)]; simp

theorem lc_zero (c : ℕ → ℕ → ℂ) (n : ℕ) : lc c n n = ((W n 0 * (c n 0).re : ℝ) : ℂ) := by
  have h : signedCoeff c n 0 = ((c n 0).re : ℂ) := by
    apply Complex.ext <;> simp [signedCoeff, gslSign]
  rw [lc, sub_self, h, eps]; simp

/-- Evaluation of any local expansion. -/
theorem lEval_lc (L : Legendre) (hL : IsTable L) (e : Exp) (x : V3) (hp : e.p ≤ 20) :
    lEvalFull L e x =
      (∑ n ∈ Finset.range (e.p + 1), ∑ k ∈ Finset.range (2 * n + 1), lc e.coeff n k * R n k (x - e.center)).re :=
  lEval_eq L hL e x hp (lc e.coeff) (fun n _ => sy_lc _ n) (fun n _ => by rw [lc_zero, Complex.ofReal_re])
    (fun n m _ h1 _ => lc_pos _ n m h1)

theorem signedCoeff_lc (c : ℕ → ℕ → ℂ) (n : ℕ) (k : ℤ) (hk : k.natAbs ≤ n) :
    lc c n (n + k).toNat = eps k * W n k.natAbs * signedCoeff c n k := by
  have e : (((n + k).toNat : ℤ) - n) = k := by omega
  rw [lc, e]

/-- Coefficients of the translated local expansion for all orders. -/
def l2lA (p : ℕ) (a : ℕ → ℕ → ℂ) (w : V3) (n i : ℕ) : ℂ :=
  ∑ nn ∈ Finset.Icc n p, ∑ k ∈ Finset.range (2 * nn + 1),
    if i ≤ k ∧ k - i ≤ 2 * (nn - n) then a nn k * R (nn - n) (k - i) w else 0

theorem l2l_eq (L : Legendre) (hL : IsTable L) (p : ℕ) (c : ℕ → ℕ → ℂ) (v : V3) (n m : ℕ) (hp : p ≤ 20)
    (hm : m ≤ n) : W n m * l2lCoeff L p c v n m = l2lA p (lc c) (-v) n (n + m) := by
  rw [l2lCoeff, l2lA, Finset.mul_sum]
  refine Finset.sum_congr rfl fun nn hnn => ?_
  have hnn := Finset.mem_Icc.mp hnn
  rw [sum_Icc_shift, Finset.mul_sum]
  refine Finset.sum_congr rfl fun k hk => ?_
  have hk : k ≤ 2 * nn := by simpa [Nat.lt_succ_iff] using hk
  by_cases hcond : n + m ≤ k ∧ k - (n + m) ≤ 2 * (nn - n)
  · rw [if_pos hcond, if_neg (by omega)]
    have hk1 : ((k : ℤ) - nn).natAbs ≤ nn := by omega
    have hk2 : ((k : ℤ) - nn - m).natAbs ≤ nn - n := by omega
    have h1 := solid_int v (nn - n) ((k : ℤ) - nn - m) hk2
    have h2 := signedCoeff_lc c nn ((k : ℤ) - nn) hk1
    rw [show ((nn : ℤ) + ((k : ℤ) - nn)).toNat = k by omega] at h2
    rw [show (((nn - n : ℕ) : ℤ) + ((k : ℤ) - nn - m)).toNat = k - (n + m) by omega] at h1
    rw [h2, R_neg, hL.fn (nn - n) _ _ (by omega) hk2 (abs_cosA v).1 (abs_cosA v).2, l2lTable, iPow_l2l, Anm_eq, Anm_eq,
      Anm_eq, rect_cis]
    have hW1 : (W nn ((k : ℤ) - nn).natAbs : ℂ) ≠ 0 := by exact_mod_cast (W_pos _ _).ne'
    have hW2 : (W (nn - n) ((k : ℤ) - nn - m).natAbs : ℂ) ≠ 0 := by exact_mod_cast (W_pos _ _).ne'
    have hW3 : (W n m : ℂ) ≠ 0 := by exact_mod_cast (W_pos _ _).ne'
    have he1 : (eps ((k : ℤ) - nn - m) : ℂ) * eps ((k : ℤ) - nn - m) = 1 := by exact_mod_cast eps_mul_self _
    have hs : (-1 : ℂ) ^ (nn - n) / (-1) ^ nn * (-1) ^ n * (-1) ^ (nn + n) = (-1) ^ (nn - n) := by
      have hne : (-1 : ℂ) ^ nn ≠ 0 := pow_ne_zero _ (by norm_num)
      field_simp
      rw [← pow_add, neg_one_sq_pow (n + (nn + n)) nn (by omega)]
    push_cast at h1 ⊢
    generalize signedCoeff c nn ((k : ℤ) - nn) = A at *
    generalize R (nn - n) (k - (n + m)) v = B at *
    generalize (eps ((k : ℤ) - nn) : ℂ) = e1 at *
    generalize (eps ((k : ℤ) - nn - m) : ℂ) = e2 at *
    generalize (W nn ((k : ℤ) - nn).natAbs : ℂ) = w1 at *
    generalize (W (nn - n) ((k : ℤ) - nn - m).natAbs : ℂ) = w2 at *
    generalize (W n m : ℂ) = w3 at *
    generalize (assLeg (nn - n) ((k : ℤ) - nn - m).natAbs (cosA v) : ℂ) = F at *
    generalize cis (((k : ℝ) - nn - m) * beta v) = G at *
    generalize (rho v : ℂ) ^ (nn - n) = r at *
    calc _ = (F * r * G) * ((-1) ^ (nn - n) / (-1) ^ nn * (-1) ^ n * (-1) ^ (nn + n)) * (w1 / w2) * e1 * e2 * A := by
            field_simp
      _ = (e2 * e2) * B * (-1) ^ (nn - n) * w1 * e1 * A := by rw [h1, hs]; field_simp
      _ = _ := by rw [he1]; ring
  · rw [if_neg hcond, if_pos (by omega), mul_zero]

theorem sy_l2lA (p : ℕ) (a : ℕ → ℕ → ℂ) (ha : ∀ n ≤ p, Sy n (a n)) (w : V3) (n : ℕ) : Sy n (l2lA p a w n) := by
  intro i hi
  rw [l2lA, l2lA, map_sum, Finset.mul_sum]
  refine Finset.sum_congr rfl fun nn hnn => ?_
  have hnn := Finset.mem_Icc.mp hnn
  rw [map_sum, Finset.mul_sum, ← Finset.sum_range_reflect]
  refine Finset.sum_congr rfl fun k hk => ?_
  have hk : k ≤ 2 * nn := by simpa [Nat.lt_succ_iff] using hk
  by_cases hcond : i ≤ 2 * nn - k ∧ 2 * nn - k - i ≤ 2 * (nn - n)
  · rw [show 2 * nn + 1 - 1 - k = 2 * nn - k by omega, if_pos hcond, if_pos (by omega), map_mul,
      ha nn hnn.2 _ (by omega), conj_R _ _ _ hcond.2]
    rw [show 2 * nn - (2 * nn - k) = k by omega, show 2 * (nn - n) - (2 * nn - k - i) = k - (2 * n - i) by omega]
    have : (-1 : ℂ) ^ (nn + (2 * nn - k)) * (-1) ^ (nn - n + (2 * nn - k - i)) = (-1) ^ (n + i) := by
      rw [← pow_add]; exact neg_one_sq_pow _ _ (by omega)
    linear_combination (a nn k * R (nn - n) (k - (2 * n - i)) w) * this
  · rw [show 2 * nn + 1 - 1 - k = 2 * nn - k by omega, if_neg hcond, if_neg (by omega), map_zero, mul_zero]

/-- Re-expansion of a harmonic about another point. -/
theorem R_translate (N K : ℕ) (w y : V3) : R N K (w + y) = ∑ n ∈ Finset.range (N + 1), ∑ i ∈ Finset.range (2 * n + 1),
    if i ≤ K ∧ K - i ≤ 2 * (N - n) then R (N - n) (K - i) w * R n i y else 0 := by
  rw [← coeff_Qd, add_comm, Qd_add, finsetSum_coeff]
  refine Finset.sum_congr rfl fun n _ => ?_
  rw [coeff_mul_range _ _ (2 * n) (2 * (N - n)) _ (sym_Qd n y).1 (sym_Qd (N - n) w).1]
  refine Finset.sum_congr rfl fun i _ => ?_
  simp only [coeff_Qd, mul_comm]

theorem l2l_sum (p : ℕ) (a : ℕ → ℕ → ℂ) (w y : V3) :
    ∑ n ∈ Finset.range (p + 1), ∑ i ∈ Finset.range (2 * n + 1), l2lA p a w n i * R n i y =
      ∑ N ∈ Finset.range (p + 1), ∑ K ∈ Finset.range (2 * N + 1), a N K * R N K (w + y) := by
  have h1 : ∀ N K, a N K * R N K (w + y) = ∑ n ∈ Finset.range (N + 1), ∑ i ∈ Finset.range (2 * n + 1),
      (if i ≤ K ∧ K - i ≤ 2 * (N - n) then a N K * R (N - n) (K - i) w else 0) * R n i y := by
    intro N K
    rw [R_translate, Finset.mul_sum]
    refine Finset.sum_congr rfl fun n _ => ?_
    rw [Finset.mul_sum]
    refine Finset.sum_congr rfl fun i _ => ?_
    split_ifs <;> ring
  simp only [h1, l2lA]
  have h2 : ∀ N ∈ Finset.range (p + 1), ∑ K ∈ Finset.range (2 * N + 1), ∑ n ∈ Finset.range (N + 1), ∑ i ∈ Finset.range (2 * n + 1),
      (if i ≤ K ∧ K - i ≤ 2 * (N - n) then a N K * R (N - n) (K - i) w else 0) * R n i y =
      ∑ n ∈ Finset.range (N + 1), ∑ i ∈ Finset.range (2 * n + 1), (∑ K ∈ Finset.range (2 * N + 1),
        if i ≤ K ∧ K - i ≤ 2 * (N - n) then a N K * R (N - n) (K - i) w else 0) * R n i y := by
    intro N _
    rw [Finset.sum_comm]
    refine Finset.sum_congr rfl fun n _ => ?_
    rw [Finset.sum_comm]
    refine Finset.sum_congr rfl fun i _ => ?_
    rw [Finset.sum_mul]
  rw [Finset.sum_congr rfl h2]
  have h3 : ∀ n ∈ Finset.range (p + 1), ∑ i ∈ Finset.range (2 * n + 1), (∑ nn ∈ Finset.Icc n p, ∑ k ∈ Finset.range (2 * nn + 1),
      if i ≤ k ∧ k - i ≤ 2 * (nn - n) then a nn k * R (nn - n) (k - i) w else 0) * R n i y =
      ∑ nn ∈ Finset.Icc n p, ∑ i ∈ Finset.range (2 * n + 1), (∑ k ∈ Finset.range (2 * nn + 1),
        if i ≤ k ∧ k - i ≤ 2 * (nn - n) then a nn k * R (nn - n) (k - i) w else 0) * R n i y := by
    intro n _
    rw [Finset.sum_comm]
    exact Finset.sum_congr rfl fun i _ => Finset.sum_mul _ _ _
  rw [Finset.sum_congr rfl h3]
  refine Finset.sum_comm' fun n N => ?_
  simp only [Finset.mem_range, Finset.mem_Icc]; omega

theorem lEvalFull_add (L : Legendre) (e : Exp) (z : ℕ → ℕ → ℂ) (b : Bool) (x : V3) :
    lEvalFull L { e.addCoeffs z with isZero := b } x = lEvalFull L e x + lEvalFull L { e with coeff := z } x := by
  simp only [lEvalFull, Exp.addCoeffs]
  rw [← Complex.add_re, ← Finset.sum_add_distrib]
  congr 1
  refine Finset.sum_congr rfl fun n hn => ?_
  have hn : n ≤ e.p := by simpa [Nat.lt_succ_iff] using hn
  rw [if_pos ⟨hn, by omega⟩, add_add_add_comm, ← Finset.sum_add_distrib]
  congr 1
  · ring
  · refine Finset.sum_congr rfl fun m hm => ?_
    have hm := Finset.mem_Icc.mp hm
    rw [if_pos ⟨hn, hm.2⟩]; ring

/-- The translated expansion is the same function. -/
theorem l2l_exact (L : Legendre) (hL : IsTable L) (e o : Exp) (hpo : o.p = e.p) (hp : e.p ≤ 20) (x : V3) :
    lEvalFull L { e with coeff := l2lCoeff L e.p o.coeff (o.center - e.center) } x = lEvalFull L o x := by
  rw [lEval_eq L hL { e with coeff := l2lCoeff L e.p o.coeff (o.center - e.center) } x hp (l2lA e.p (lc o.coeff) (-(o.center - e.center)))
    (fun n _ => sy_l2lA _ _ (fun n _ => sy_lc _ n) _ n) ?_ ?_, lEval_lc L hL o x (by omega), l2l_sum, hpo]
  · congr 3
    funext N
    congr 2
    funext K
    congr 2
    dsimp only
    abel
  · intro n _
    have h := l2l_eq L hL e.p o.coeff (o.center - e.center) n 0 hp (by omega)
    rw [add_zero] at h
    rw [← h]; simp
  · intro n m _ _ hm
    exact l2l_eq L hL e.p o.coeff (o.center - e.center) n m hp hm

end PiBem.Harmonic
