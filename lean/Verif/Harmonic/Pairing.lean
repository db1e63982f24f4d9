import Verif.Harmonic.M2M
import Mathlib.Algebra.Polynomial.Homogenize

/-!
# The invariant pairing and the addition theorem

Mathematics used by the proofs: the sum over orders of products of harmonics of the same degree is a coefficient of
a power of the generating polynomial of a rotated vector.
-/

noncomputable section

namespace PiBem.Harmonic

open Polynomial Complex PiBem.Legendre PiBem.Expansion

/-- `∑ k! (2N-k)! f_k g_k`. -/
def pair (N : ℕ) (f g : ℂ[X]) : ℂ :=
  ∑ k ∈ Finset.range (2 * N + 1), (k.factorial : ℂ) * (2 * N - k).factorial * f.coeff k * g.coeff k

/-- Homogeneous substitution `∑ g_k A^k B^(d-k)`. -/
def hom (A B : ℂ[X]) (d : ℕ) (g : ℂ[X]) : ℂ[X] := MvPolynomial.aeval ![A, B] (homogenize g d)

theorem hom_eq (A B : ℂ[X]) (d : ℕ) (g : ℂ[X]) :
    hom A B d g = ∑ k ∈ Finset.range (d + 1), C (g.coeff k) * (A ^ k * B ^ (d - k)) := by
  rw [hom, homogenize, map_sum, Finset.Nat.sum_antidiagonal_eq_sum_range_succ_mk]
  refine Finset.sum_congr rfl fun k hk => ?_
  rw [MvPolynomial.aeval_monomial, Finsupp.update_eq_add_single (by simp), Finsupp.prod_add_index',
    Finsupp.prod_single_index, Finsupp.prod_single_index]
  · simp
  · simp
  · simp
  · simp
  · intro a b c; exact pow_add _ _ _

theorem hom_mul (A B f g : ℂ[X]) {d e : ℕ} (hf : f.natDegree ≤ d) (hg : g.natDegree ≤ e) :
    hom A B (d + e) (f * g) = hom A B d f * hom A B e g := by
  rw [hom, homogenize_mul f g hf hg, map_mul]; rfl

theorem hom_pow (A B f : ℂ[X]) {d : ℕ} (hf : f.natDegree ≤ d) (n : ℕ) :
    hom A B (d * n) (f ^ n) = hom A B d f ^ n := by
  induction n with
  | zero => simp [hom]
  | succ n ih =>
    rw [pow_succ, pow_succ, mul_add, mul_one, hom_mul _ _ _ _ ((natDegree_pow_le_of_le n hf).trans (by rw [mul_comm])) hf, ih]

theorem lin_coeff (a b : ℂ) (n i : ℕ) : ((C a + C b * X) ^ n).coeff i = a ^ (n - i) * b ^ i * (n.choose i : ℕ) := by
  rw [add_comm, add_pow, finsetSum_coeff]
  have h : ∀ k, ((C b * X) ^ k * C a ^ (n - k) * (n.choose k : ℂ[X])) =
      C (a ^ (n - k) * b ^ k * (n.choose k : ℕ)) * X ^ k := by
    intro k
    rw [mul_pow]; simp only [C_mul, C_pow, map_natCast]; ring
  simp only [h, coeff_C_mul, coeff_X_pow]
  rw [Finset.sum_eq_single i]
  · simp
  · intro j _ hj; simp [Ne.symm hj]
  · intro hi
    simp only [Finset.mem_range, not_lt] at hi
    rw [Nat.choose_eq_zero_of_lt (by omega)]; simp

theorem choose_identity (N k i : ℕ) (h1 : i ≤ k) (h2 : i ≤ N) (h3 : k - i ≤ N) :
    (k.factorial : ℂ) * (2 * N - k).factorial * ((N.choose i : ℕ) * (N.choose (k - i) : ℕ)) =
      (N.factorial : ℂ) ^ 2 * ((k.choose i : ℕ) * ((2 * N - k).choose (N - i) : ℕ)) := by
  rw [Nat.cast_choose ℂ h2, Nat.cast_choose ℂ h3, Nat.cast_choose ℂ h1, Nat.cast_choose ℂ (show N - i ≤ 2 * N - k by omega)]
  rw [show 2 * N - k - (N - i) = N - (k - i) by omega]
  have f1 : (i.factorial : ℂ) ≠ 0 := by exact_mod_cast i.factorial_ne_zero
  have f2 : ((N - i).factorial : ℂ) ≠ 0 := by exact_mod_cast (N - i).factorial_ne_zero
  have f3 : ((k - i).factorial : ℂ) ≠ 0 := by exact_mod_cast (k - i).factorial_ne_zero
  have f4 : ((N - (k - i)).factorial : ℂ) ≠ 0 := by exact_mod_cast (N - (k - i)).factorial_ne_zero
  field_simp

theorem natDegree_lin (a b : ℂ) (n : ℕ) : ((C a + C b * X) ^ n).natDegree ≤ n := by
  have : (C a + C b * X).natDegree ≤ 1 := by compute_degree
  exact (natDegree_pow_le_of_le n this).trans (by omega)

theorem pair_monomial (N k : ℕ) (hk : k ≤ 2 * N) (p1 q1 p2 q2 : ℂ) :
    (k.factorial : ℂ) * (2 * N - k).factorial * (((C p1 + C q1 * X) ^ N * (C p2 + C q2 * X) ^ N).coeff k) =
      (N.factorial : ℂ) ^ 2 * (((C q2 + C q1 * X) ^ k * (C p2 + C p1 * X) ^ (2 * N - k)).coeff N) := by
  rw [coeff_mul_range _ _ N N k (natDegree_lin _ _ _) (natDegree_lin _ _ _), coeff_mul,
    Finset.Nat.sum_antidiagonal_eq_sum_range_succ_mk, Finset.mul_sum, Finset.mul_sum]
  refine Finset.sum_congr rfl fun i hi => ?_
  have hi : i ≤ N := by simpa [Nat.lt_succ_iff] using hi
  simp only [lin_coeff]
  by_cases h : i ≤ k ∧ k - i ≤ N
  · rw [if_pos h]
    have hc := choose_identity N k i h.1 hi h.2
    rw [show 2 * N - k - (N - i) = N - (k - i) by omega]
    linear_combination (p1 ^ (N - i) * q1 ^ i * p2 ^ (N - (k - i)) * q2 ^ (k - i)) * hc
  · rw [if_neg h]
    by_cases h1 : i ≤ k
    · rw [Nat.choose_eq_zero_of_lt (show 2 * N - k < N - i by omega)]; simp
    · rw [Nat.choose_eq_zero_of_lt (show k < i by omega)]; simp

/-- Pairing with a product of powers of two linear forms. -/
theorem pair_lin (N : ℕ) (p1 q1 p2 q2 : ℂ) (g : ℂ[X]) :
    pair N ((C p1 + C q1 * X) ^ N * (C p2 + C q2 * X) ^ N) g =
      (N.factorial : ℂ) ^ 2 * (hom (C q2 + C q1 * X) (C p2 + C p1 * X) (2 * N) g).coeff N := by
  rw [pair, hom_eq, finsetSum_coeff, Finset.mul_sum]
  refine Finset.sum_congr rfl fun k hk => ?_
  have hk : k ≤ 2 * N := by simpa [Nat.lt_succ_iff] using hk
  rw [coeff_C_mul]
  linear_combination (g.coeff k) * pair_monomial N k hk p1 q1 p2 q2

/-! ## Spinors -/

/-- The vector of a spinor `(α, β)`: `z = |α|² - |β|²`, `x + i y = 2 α β̄`. -/
def vec (α β : ℂ) : V3 :=
  ![(2 * α * (starRingEnd ℂ) β).re, (2 * α * (starRingEnd ℂ) β).im, Complex.normSq α - Complex.normSq β]

theorem uc_vec (α β : ℂ) : uc (vec α β) = 2 * α * (starRingEnd ℂ) β := by
  apply Complex.ext <;> simp [uc, vec]

/-- Every vector is the vector of a spinor. -/
theorem exists_spinor (D : V3) : ∃ α β : ℂ, vec α β = D := by
  -- `α = √((r+z)/2) e^{iφ}`, `β = √((r-z)/2)`
  have hr := rho_sq D
  have hr0 := rho_nonneg D
  have hz : |D 2| ≤ rho D := by
    rw [← Real.sqrt_sq_eq_abs, rho]
    exact Real.sqrt_le_sqrt (by nlinarith [sq_nonneg (D 0), sq_nonneg (D 1)])
  rw [abs_le] at hz
  have hs : Real.sqrt ((rho D + D 2) / 2) * Real.sqrt ((rho D - D 2) / 2) = ‖uc D‖ / 2 := by
    rw [← Real.sqrt_mul (by linarith [hz.1]), norm_uc,
      show (rho D + D 2) / 2 * ((rho D - D 2) / 2) = (D 0 ^ 2 + D 1 ^ 2) / 2 ^ 2 by
        have : (rho D + D 2) / 2 * ((rho D - D 2) / 2) = (rho D ^ 2 - D 2 ^ 2) / 4 := by ring
        rw [this, hr]; ring,
      Real.sqrt_div (by positivity), Real.sqrt_sq (by norm_num)]
  refine ⟨(Real.sqrt ((rho D + D 2) / 2) : ℝ) * cis (beta D), (Real.sqrt ((rho D - D 2) / 2) : ℝ), ?_⟩
  have hu : uc (vec ((Real.sqrt ((rho D + D 2) / 2) : ℝ) * cis (beta D)) (Real.sqrt ((rho D - D 2) / 2) : ℝ)) = uc D := by
    rw [uc_vec, Complex.conj_ofReal]
    have h1 : ((‖uc D‖ : ℝ) : ℂ) * cis (beta D) = uc D := by simpa using cis_beta D 1
    have h2 : ((Real.sqrt ((rho D + D 2) / 2) : ℝ) : ℂ) * (Real.sqrt ((rho D - D 2) / 2) : ℝ) = (‖uc D‖ : ℝ) / 2 := by
      exact_mod_cast hs
    linear_combination (2 * cis (beta D)) * h2 + h1
  have hn : Complex.normSq (cis (beta D)) = 1 := by
    rw [Complex.normSq_eq_norm_sq]
    unfold cis
    rw [Complex.norm_exp_ofReal_mul_I]; norm_num
  funext i
  fin_cases i
  · exact congrArg Complex.re hu
  · exact congrArg Complex.im hu
  · simp only [vec, Fin.reduceFinMk, Matrix.cons_val, Complex.normSq_mul, hn, mul_one, Complex.normSq_ofReal]
    rw [Real.mul_self_sqrt (by linarith [hz.1]), Real.mul_self_sqrt (by linarith [hz.2])]
    ring

/-- Coordinates of `x` in a frame with third axis along `vec α β`, times the length of the latter. -/
def rot (α β : ℂ) (x : V3) : V3 :=
  let u := uc x * (starRingEnd ℂ) α ^ 2 - (starRingEnd ℂ) (uc x) * (starRingEnd ℂ) β ^ 2 -
    2 * x 2 * (starRingEnd ℂ) α * (starRingEnd ℂ) β
  ![u.re, u.im, dot (vec α β) x]

theorem uc_rot (α β : ℂ) (x : V3) : uc (rot α β x) = uc x * (starRingEnd ℂ) α ^ 2 -
    (starRingEnd ℂ) (uc x) * (starRingEnd ℂ) β ^ 2 - 2 * x 2 * (starRingEnd ℂ) α * (starRingEnd ℂ) β := by
  apply Complex.ext <;> simp [uc, rot]

theorem rot_two (α β : ℂ) (x : V3) : rot α β x 2 = dot (vec α β) x := by simp [rot]

/-- The frame is orthonormal. -/
theorem sq_rot (α β : ℂ) (x : V3) : sq (rot α β x) = sq (vec α β) * sq x := by
  simp [sq, rot, vec, uc, dot, Complex.normSq_apply, pow_two]
  ring

/-- Conjugate generating polynomial of the vector of a spinor. -/
theorem map_conj_Q_vec (α β : ℂ) : (Q (vec α β)).map (starRingEnd ℂ) =
    (C ((starRingEnd ℂ) β) + C ((starRingEnd ℂ) α) * X) * (C α + C (-β) * X) := by
  have h2 : (vec α β 2 : ℂ) = α * (starRingEnd ℂ) α - β * (starRingEnd ℂ) β := by
    simp [vec, Complex.mul_conj]
  simp only [Q, Polynomial.map_sub, Polynomial.map_add, Polynomial.map_mul, map_C, map_X, Polynomial.map_pow, uc_vec, map_div₀,
    map_mul, Complex.conj_conj, map_ofNat, Complex.conj_ofReal]
  rw [h2, show (2 * (starRingEnd ℂ) α * β / 2) = (starRingEnd ℂ) α * β by ring,
    show 2 * α * (starRingEnd ℂ) β / 2 = α * (starRingEnd ℂ) β by ring]
  simp only [C_mul, C_sub, C_neg]
  ring

/-- Substituting linear forms in the generating polynomial rotates the vector. -/
theorem hom_Q (α β : ℂ) (x : V3) :
    hom (C (-β) + C ((starRingEnd ℂ) α) * X) (C α + C ((starRingEnd ℂ) β) * X) 2 (Q x) = Q (rot α β x) := by
  have h2 : ((dot (vec α β) x : ℝ) : ℂ) = (starRingEnd ℂ) (uc x) * α * (starRingEnd ℂ) β +
      x 2 * (α * (starRingEnd ℂ) α - β * (starRingEnd ℂ) β) + uc x * (starRingEnd ℂ) α * β := by
    apply Complex.ext <;> simp [dot, vec, uc, Complex.normSq_apply] <;> ring
  rw [hom_eq, Finset.sum_range_succ, Finset.sum_range_succ, Finset.sum_range_succ, Finset.sum_range_zero,
    Q_coeff_zero, Q_coeff_one, Q_coeff_two, Q, uc_rot, rot_two, h2]
  refine Polynomial.funext fun t => ?_
  simp only [eval_add, eval_sub, eval_mul, eval_pow, eval_C, eval_X, map_sub, map_mul, map_pow, Complex.conj_conj,
    Complex.conj_ofReal, map_ofNat, zero_add]
  ring

/-- **Addition theorem**, polarised: pairing of the conjugate of `Q D ^ N` with a product. -/
theorem pair_conj_Q (α β : ℂ) (N : ℕ) (g : ℂ[X]) :
    pair N ((Q (vec α β) ^ N).map (starRingEnd ℂ)) g = (N.factorial : ℂ) ^ 2 *
      (hom (C (-β) + C ((starRingEnd ℂ) α) * X) (C α + C ((starRingEnd ℂ) β) * X) (2 * N) g).coeff N := by
  rw [Polynomial.map_pow, map_conj_Q_vec, mul_pow, pair_lin]

end PiBem.Harmonic
