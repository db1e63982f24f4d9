import Verif.Harmonic.Error

/-!
# Evaluation of expansions and translation of local expansions

Mathematics used by the proofs: sums over non-negative orders, as computed by the code, are sums over all orders; the
translated local expansion is the re-expansion of the same polynomial.
-/

noncomputable section

namespace PiBem.Harmonic

open Polynomial Complex PiBem.Legendre PiBem.Expansion

/-- Coefficients of opposite orders are conjugate up to sign. -/
def Sy (n : ℕ) (a : ℕ → ℂ) : Prop := ∀ k ≤ 2 * n, (starRingEnd ℂ) (a k) = (-1) ^ (n + k) * a (2 * n - k)

theorem sy_R (n : ℕ) (v : V3) : Sy n (fun k => R n k v) := fun k hk => conj_R n k v hk

theorem neg_one_sq_pow (a b : ℕ) (h : a % 2 = b % 2) : (-1 : ℂ) ^ a = (-1) ^ b := by
  rcases Nat.even_or_odd a with e | e
  · rw [e.neg_one_pow, (show Even b by rw [Nat.even_iff] at *; omega).neg_one_pow]
  · rw [e.neg_one_pow, (show Odd b by rw [Nat.odd_iff] at *; omega).neg_one_pow]

theorem sum_sym {n : ℕ} (f : ℕ → ℝ) (hf : ∀ k ≤ 2 * n, f (2 * n - k) = f k) :
    ∑ k ∈ Finset.range (2 * n + 1), f k = f n + ∑ m ∈ Finset.Icc 1 n, 2 * f (n + m) := by
  have h1 : ∑ k ∈ Finset.range (2 * n + 1), f k = ∑ k ∈ Finset.range n, f k + ∑ k ∈ Finset.range (n + 1), f (n + k) := by
    rw [show 2 * n + 1 = n + (n + 1) by omega, Finset.sum_range_add]
  have h2 : ∑ k ∈ Finset.range n, f k = ∑ k ∈ Finset.range n, f (n + (k + 1)) := by
    rw [← Finset.sum_range_reflect]
    refine Finset.sum_congr rfl fun k hk => ?_
    have hk := Finset.mem_range.mp hk
    rw [← hf (n - 1 - k) (by omega)]
    congr 1; omega
  have h3 : ∑ m ∈ Finset.Icc 1 n, 2 * f (n + m) = ∑ k ∈ Finset.range n, 2 * f (n + (k + 1)) := by
    rw [Finset.range_eq_Ico, Finset.sum_Ico_add' (fun m => 2 * f (n + m)) 0 n 1]
    refine Finset.sum_congr ?_ fun _ _ => rfl
    ext x; simp only [Finset.mem_Icc, Finset.mem_Ico]; omega
  rw [h1, h2, Finset.sum_range_succ', h3, ← Finset.mul_sum]
  simp only [add_zero]; ring

/-- Sums over non-negative orders are sums over all orders. -/
theorem eval_sym {n : ℕ} {a b : ℕ → ℂ} (ha : Sy n a) (hb : Sy n b) :
    (a n * b n + ∑ m ∈ Finset.Icc 1 n, 2 * (a (n + m) * b (n + m))).re =
      (∑ k ∈ Finset.range (2 * n + 1), a k * b k).re := by
  rw [Complex.add_re, Complex.re_sum, Complex.re_sum]
  rw [sum_sym (fun k => (a k * b k).re)]
  · congr 1
    refine Finset.sum_congr rfl fun m _ => ?_
    rw [show (2 : ℂ) = ((2 : ℝ) : ℂ) by norm_num, Complex.re_ofReal_mul]
  · intro k hk
    have h : a (2 * n - k) * b (2 * n - k) = (starRingEnd ℂ) (a k * b k) := by
      rw [map_mul, ha k hk, hb k hk]
      have : (-1 : ℂ) ^ (n + k) * (-1) ^ (n + k) = 1 := by rw [← mul_pow]; simp
      linear_combination (-(a (2 * n - k) * b (2 * n - k))) * this
    simp only [h, Complex.conj_re]

theorem rect_cis (t : ℝ) : (⟨Real.cos t, Real.sin t⟩ : ℂ) = cis t := by
  rw [cis, Complex.exp_mul_I]
  apply Complex.ext
  · simp [← Complex.ofReal_cos, ← Complex.ofReal_sin]
  · simp [← Complex.ofReal_cos, ← Complex.ofReal_sin]

/-- Evaluation of a local expansion. -/
theorem lEval_eq (L : Legendre) (hL : IsTable L) (e : Exp) (x : V3) (hp : e.p ≤ 20) (a : ℕ → ℕ → ℂ)
    (ha : ∀ n ≤ e.p, Sy n (a n)) (h0 : ∀ n ≤ e.p, (W n 0 * (e.coeff n 0).re : ℝ) = (a n n).re)
    (hc : ∀ n m, n ≤ e.p → 1 ≤ m → m ≤ n → W n m * e.coeff n m = a n (n + m)) :
    lEvalFull L e x =
      (∑ n ∈ Finset.range (e.p + 1), ∑ k ∈ Finset.range (2 * n + 1), a n k * R n k (x - e.center)).re := by
  unfold lEvalFull
  simp only [Complex.re_sum (Finset.range (e.p + 1))]
  refine Finset.sum_congr rfl fun n hn => ?_
  have hn : n ≤ e.p := by simpa [Nat.lt_succ_iff] using hn
  rw [← eval_sym (ha n hn) (sy_R n _)]
  rw [Complex.add_re, Complex.add_re]
  set v := x - e.center
  congr 1
  · have h := solid' v n 0 (by omega)
    rw [hL.fn n 0 _ (by omega) (by omega) (abs_cosA v).1 (abs_cosA v).2]
    simp only [Nat.cast_zero, zero_mul, add_zero] at h
    have hc0 : cis 0 = 1 := by simp [cis]
    rw [hc0, mul_one] at h
    have him : (R n n v).im = 0 := by
      have := congrArg Complex.im h
      simp only [Complex.ofReal_im, Complex.mul_im, Complex.ofReal_re, zero_mul, add_zero] at this
      rcases mul_eq_zero.mp this.symm with h1 | h1
      · exact absurd h1 (W_pos n 0).ne'
      · exact h1
    rw [h]
    simp only [Complex.mul_re, Complex.mul_im, Complex.ofReal_re, Complex.ofReal_im, him]
    rw [← h0 n hn]; ring
  · congr 1
    refine Finset.sum_congr rfl fun m hm => ?_
    have hm := Finset.mem_Icc.mp hm
    rw [hL.fn n m _ (by omega) (by omega) (abs_cosA v).1 (abs_cosA v).2, rect_cis, ← hc n m hn hm.1 hm.2]
    have h := solid' v n m hm.2
    linear_combination (2 * e.coeff n m) * h

/-- Evaluation of a multipole expansion. -/
theorem mEval_eq (L : Legendre) (hL : IsTable L) (e : Exp) (x : V3) (hp : e.p ≤ 20) (hx : x ≠ e.center) (σ : ℕ → ℂ[X])
    (hσ : ∀ n ≤ e.p, Sym n (σ n))
    (hc : ∀ n m, n ≤ e.p → m ≤ n → e.coeff n m = W n m * (starRingEnd ℂ) ((σ n).coeff (n + m))) :
    mEvalFull L e x = ∑ n ∈ Finset.range (e.p + 1), (fld n (x - e.center) (σ n)).re := by
  unfold mEvalFull
  simp only [Complex.re_sum (Finset.range (e.p + 1))]
  refine Finset.sum_congr rfl fun n hn => ?_
  have hn : n ≤ e.p := by simpa [Nat.lt_succ_iff] using hn
  set v := x - e.center
  have hv : v ≠ 0 := sub_ne_zero.mpr hx
  have hr : (rho v : ℂ) ≠ 0 := by exact_mod_cast fun h => hv (rho_eq_zero.mp h)
  have hsy : Sy n (fun k => (starRingEnd ℂ) ((σ n).coeff k) * ((k.factorial : ℂ) * (2 * n - k).factorial) / (rho v : ℂ) ^ (2 * n + 1)) := by
    intro k hk
    have h := (hσ n hn).conj (2 * n - k) (by omega)
    rw [show 2 * n - (2 * n - k) = k by omega] at h
    simp only [map_div₀, map_mul, Complex.conj_conj, map_pow, Complex.conj_ofReal, map_natCast, h]
    rw [show 2 * n - (2 * n - k) = k by omega]
    have : (-1 : ℂ) ^ (n + k) * (-1) ^ (n + (2 * n - k)) = 1 := by
      rw [← pow_add, show n + k + (n + (2 * n - k)) = 2 * (2 * n) by omega, pow_mul]; simp
    linear_combination (-((σ n).coeff k * (k.factorial * (2 * n - k).factorial) / (rho v : ℂ) ^ (2 * n + 1))) * this
  have hfl : (fld n v (σ n)).re = (∑ k ∈ Finset.range (2 * n + 1),
      (starRingEnd ℂ) ((σ n).coeff k) * ((k.factorial : ℂ) * (2 * n - k).factorial) / (rho v : ℂ) ^ (2 * n + 1) * R n k v).re := by
    rw [← Complex.conj_re, fld, pair, map_div₀, map_sum, Finset.sum_div, map_pow, Complex.conj_ofReal]
    congr 1
    refine Finset.sum_congr rfl fun k _ => ?_
    simp only [map_mul, map_natCast, coeff_map, Complex.conj_conj, coeff_Qd]
    ring
  rw [hfl, ← eval_sym hsy (sy_R n v)]
  congr 1
  have hpow : ((rho v ^ (-(n : ℤ) - 1) : ℝ) : ℂ) = (rho v : ℂ) ^ n / (rho v : ℂ) ^ (2 * n + 1) := by
    rw [Complex.ofReal_zpow, show (-(n : ℤ) - 1) = (n : ℤ) - ((2 * n + 1 : ℕ) : ℤ) by push_cast; ring, zpow_sub₀ hr, zpow_natCast,
      zpow_natCast]
  have hterm : ∀ m, m ≤ n → e.coeff n m * cis (m * beta v) * ((L.fn n m (cosA v) * rho v ^ (-(n : ℤ) - 1) : ℝ) : ℂ) =
      (starRingEnd ℂ) ((σ n).coeff (n + m)) * (((n + m).factorial : ℂ) * (2 * n - (n + m)).factorial) /
        (rho v : ℂ) ^ (2 * n + 1) * R n (n + m) v := by
    intro m hm
    rw [hL.fn n m _ (by omega) hm (abs_cosA v).1 (abs_cosA v).2, hc n m hn hm, Complex.ofReal_mul, hpow]
    have h := solid' v n m hm
    have hW : (W n m : ℂ) ^ 2 = (n - m).factorial * (n + m).factorial := by exact_mod_cast W_sq n m
    rw [show 2 * n - (n + m) = n - m by omega]
    push_cast at h
    generalize (starRingEnd ℂ) ((σ n).coeff (n + m)) = s at *
    generalize R n (n + m) v = r at *
    generalize (rho v : ℂ) ^ (2 * n + 1) = d at *
    calc _ = W n m * s * (assLeg n m (cosA v) * (rho v : ℂ) ^ n * cis (m * beta v)) / d := by ring
      _ = (W n m : ℂ) ^ 2 * s * r / d := by rw [h]; ring
      _ = _ := by rw [hW]; ring
  congr 1
  · have h := hterm 0 (by omega)
    simpa [cis] using h
  · refine Finset.sum_congr rfl fun m hm => ?_
    have hm := Finset.mem_Icc.mp hm
    rw [← hterm m hm.2]; ring

end PiBem.Harmonic
